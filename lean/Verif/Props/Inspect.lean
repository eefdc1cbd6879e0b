import Verif.Model.Api
import Verif.Props.Bufr

/-!
# Properties of what scripts read from objects: C108
-/

namespace Gobufr

variable {F : Type} [GoFloat F]

/-- The Lua value that stands for the value of a field. -/
inductive Stands : FieldVal F → LuaVal F → Prop
  | uint (n) : Stands (.val (.uint n)) (.num n)
  | int (i) : Stands (.val (.int i)) (.num i)
  | float (x) : Stands (.val (.float x)) (.float x)
  | bool (b) : Stands (.val (.bool b)) (.bool b)
  | str (s) : Stands (.val (.str s)) (.str s)
  | binary (b) : Stands (.val (.binary b)) .userdata

/-- The name that a value given by a script stands for: texts are names themselves, numbers of at most 14 digits
are written in decimal, nil, truth values and objects are the empty name. -/
inductive NameOf : LVal F → GoString → Prop
  | str (s) : NameOf (.lua (.str s)) s
  | num (i : Int) (hi : i.natAbs < 10 ^ 14) : NameOf (.lua (.num i)) (itoa i)
  | nil : NameOf (.lua .nil) []
  | bool (b) : NameOf (.lua (.bool b)) []
  | userdata : NameOf (.lua .userdata) []
  | msg (m) : NameOf (.msg m) []
  | sec (s) : NameOf (.sec s) []
  | fld (f) : NameOf (.fld f) []

omit [GoFloat F] in
theorem NameOf.toText {v : LVal F} {t : GoString} (h : NameOf v t) : v.toText = t := by cases h <;> rfl

/-- The first of the fields that has the name. -/
def First (mem : Mem F) (name : GoString) (fs : List FieldRef) (f : FieldRef) : Prop :=
  ∃ before after x, fs = before ++ f :: after ∧ mem.fields[f]? = some x ∧ x.name = name ∧
    ∀ g ∈ before, ∀ y, mem.fields[g]? = some y → y.name ≠ name

/-- None of the fields has the name. -/
def Absent (mem : Mem F) (name : GoString) (fs : List FieldRef) : Prop :=
  ∀ g ∈ fs, ∀ y, mem.fields[g]? = some y → y.name ≠ name

/-- **C108** (value).  `field:value()` is the number, text, truth value or bit string that the field holds, also
if that is the missing value; for anything else it raises an error.  Nothing changes. -/
theorem C108_value (c : FacCfg) (p : PFac F) (f : FieldRef) (x : Field F) (hf : p.mem.fields[f]? = some x) :
    (∀ v, (Op.value (.fld (some f))).run c p = (.ok (.lua v), p) ↔ Stands x.value v) ∧
    ((∀ v, ¬ Stands x.value v) → ∃ e, (Op.value (.fld (some f))).run c p = (.err e, p)) := by
  have hr : (Op.value (.fld (some f)) : Op F).run c p = (match BitReader.wrapO "lua" x.luaValue with
      | .ok v => (.ok (.lua v), p)
      | .err e => (.err e, p)
      | .panic w => (.panic w, p)
      | .diverge => (.diverge, p)) := by
    simp only [Op.run]
    have hd : (Op.derefFld (some f) : M (PFac F) (Field F)) p = (.ok x, p) := by simp only [Op.derefFld, hf]
    rw [M.bind_ok hd]
    cases h : BitReader.wrapO "lua" x.luaValue <;> simp [M.bind_apply, M.lift_apply, h, M.pure_apply]
  rw [hr]
  obtain ⟨name, value, nbits, hidden⟩ := x
  cases value with
  | val w =>
    cases w <;> (refine ⟨fun v => ⟨fun h => ?_, fun h => ?_⟩, fun h => ?_⟩) <;>
      first
      | (cases h; constructor)
      | (cases h; rfl)
      | exact ⟨_, rfl⟩
      | exact absurd (by constructor) (h _)
      | cases h
  | template w =>
    refine ⟨fun v => ⟨fun h => ?_, fun h => ?_⟩, fun _ => ⟨_, rfl⟩⟩ <;> cases h
  | payload w =>
    refine ⟨fun v => ⟨fun h => ?_, fun h => ?_⟩, fun _ => ⟨_, rfl⟩⟩ <;> cases h

/-- **C108** (missing).  `field:isMissing()` tells whether the field holds an unsigned number of 2 to 64 bits
all of which are set.  Nothing changes. -/
theorem C108_isMissing (c : FacCfg) (p : PFac F) (f : FieldRef) (x : Field F) (hf : p.mem.fields[f]? = some x)
    (hn : x.nbits ≤ 64) :
    ∃ b, (Op.isMissing (.fld (some f))).run c p = (.ok (.lua (.bool b)), p) ∧
      (b = true ↔ ∃ n : Nat, x.nbits = n ∧ 2 ≤ n ∧ x.value = .val (.uint (2 ^ n - 1))) := by
  refine ⟨x.isMissing, ?_, ?_⟩
  · simp only [Op.run]
    have hd : (Op.derefFld (some f) : M (PFac F) (Field F)) p = (.ok x, p) := by simp only [Op.derefFld, hf]
    rw [M.bind_ok hd]
    rfl
  · obtain ⟨name, value, nbits, hidden⟩ := x
    simp only at hn
    cases value with
    | val v =>
      show isMissing v nbits = true ↔ _
      by_cases h1 : nbits ≤ 1
      · rw [C18_one_bit v nbits h1]
        constructor
        · intro h; cases h
        · rintro ⟨n, rfl, h2, _⟩; omega
      · obtain ⟨n, rfl⟩ : ∃ n : Nat, nbits = n := ⟨nbits.toNat, by omega⟩
        have hm : missingValueOfNbits (n : Int) = some (2 ^ n - 1) := missingValueOfNbits_eq n (by omega) (by omega)
        constructor
        · intro h
          refine ⟨n, rfl, by omega, ?_⟩
          cases v with
          | uint u =>
            rw [isMissing, if_pos (by omega), hm] at h
            simp only [Option.getD_some, beq_iff_eq] at h
            rw [h]
          | _ => cases h
        · rintro ⟨m, h, _, hv⟩
          have : n = m := Int.ofNat_inj.1 h
          subst this
          simp only [FieldVal.val.injEq] at hv
          subst hv
          rw [isMissing, if_pos (by omega), hm]
          simp
    | template w => simp [Field.isMissing]
    | payload w => simp [Field.isMissing]

omit [GoFloat F] in
theorem fieldNamed_first (mem : Mem F) (name : GoString) : ∀ (fs : List FieldRef),
    (∀ f, Op.fieldNamed mem name fs = some f ↔ First mem name fs f) ∧
    (Op.fieldNamed mem name fs = none ↔ Absent mem name fs)
  | [] => by
    refine ⟨fun f => ⟨fun h => (by cases h), ?_⟩, fun _ g hg => (by cases hg), fun _ => rfl⟩
    rintro ⟨before, after, x, h, _⟩
    cases before <;> cases h
  | g :: fs => by
    have ih := fieldNamed_first mem name fs
    have hc : (mem.fields[g]?.elim false (fun x => x.name == name)) = true ↔ ∃ y, mem.fields[g]? = some y ∧ y.name = name := by
      cases mem.fields[g]? with
      | none => simp
      | some y => simp
    unfold Op.fieldNamed
    by_cases hg : ∃ y, mem.fields[g]? = some y ∧ y.name = name
    · rw [if_pos (hc.2 hg)]
      obtain ⟨y, hy, hn⟩ := hg
      refine ⟨fun f => ⟨fun h => ?_, ?_⟩, fun h => (by cases h), fun h => absurd hn (h g (by simp) y hy)⟩
      · cases h
        exact ⟨[], fs, y, rfl, hy, hn, by simp⟩
      · rintro ⟨before, after, x, he, hx, hxn, hb⟩
        cases before with
        | nil => cases he; rfl
        | cons b before =>
          cases he
          exact absurd hn (hb g (by simp) y hy)
    · rw [if_neg (fun h => hg (hc.1 h))]
      refine ⟨fun f => (ih.1 f).trans ⟨?_, ?_⟩, ih.2.trans ⟨?_, ?_⟩⟩
      · rintro ⟨before, after, x, he, hx, hxn, hb⟩
        refine ⟨g :: before, after, x, by rw [he]; rfl, hx, hxn, fun k hk => ?_⟩
        rcases List.mem_cons.1 hk with rfl | hk
        · exact fun y hy hn => hg ⟨y, hy, hn⟩
        · exact hb k hk
      · rintro ⟨before, after, x, he, hx, hxn, hb⟩
        cases before with
        | nil => cases he; exact absurd ⟨x, hx, hxn⟩ hg
        | cons b before =>
          cases he
          exact ⟨before, after, x, rfl, hx, hxn, fun k hk => hb k (by simp [hk])⟩
      · intro h k hk
        rcases List.mem_cons.1 hk with rfl | hk
        · exact fun y hy hn => hg ⟨y, hy, hn⟩
        · exact h k hk
      · exact fun h k hk => h k (by simp [hk])

omit [GoFloat F] in
theorem derefSec_some {p : PFac F} {s : SecRef} {x : SecObj} (hs : p.mem.sections[s]? = some x) :
    (Op.derefSec s : M (PFac F) SecObj) p = (.ok x, p) := by simp only [Op.derefSec, hs]

/-- **C108** (sections).  `section:getNumberOfFields()` is the number of fields of the section, and
`section:getField(name)` the first of them with this name.  Nothing changes. -/
theorem C108_section_partial (c : FacCfg) (p : PFac F) (s : SecRef) (x : SecObj) (hs : p.mem.sections[s]? = some x)
    (name : LVal F) (t : GoString) (ht : NameOf name t) :
    (Op.getNumberOfFields (.sec s)).run c p = (.ok (.lua (.num x.fields.length)), p) ∧
    ∀ f, (Op.getField (.sec s) name).run c p = (.ok (.fld (some f)), p) ↔ First p.mem t x.fields f := by
  obtain rfl := ht.toText
  constructor
  · simp only [Op.run]
    rw [M.bind_ok (derefSec_some hs)]
    rfl
  · intro f
    simp only [Op.run]
    rw [M.bind_ok (derefSec_some hs), M.gets_apply, ← (fieldNamed_first p.mem name.toText x.fields).1 f]
    simp

/-- **C108** for names that are not there: the script gets nil. -/
def C108_statement (F : Type) [GoFloat F] : Prop :=
  ∀ (c : FacCfg) (p : PFac F) (s : SecRef) (x : SecObj) (name : LVal F) (t : GoString), p.mem.sections[s]? = some x →
    NameOf name t → Absent p.mem t x.fields → (Op.getField (.sec s) name).run c p = (.ok .nil, p)

/-- How C108 fails, for every name that is not there: the script gets a field that is none.  It counts as true, and
asking for its value or whether it is missing makes the program panic. -/
theorem C108_absent (c : FacCfg) (p : PFac F) (s : SecRef) (x : SecObj) (name : LVal F) (t : GoString)
    (hs : p.mem.sections[s]? = some x) (ht : NameOf name t) (hn : Absent p.mem t x.fields) :
    ∃ v, (Op.getField (.sec s) name).run c p = (.ok v, p) ∧ v ≠ .nil ∧ v.plain.toBoolean = true ∧
      ((Op.value v).run c p).1.isPanic = true ∧ ((Op.isMissing v).run c p).1.isPanic = true := by
  obtain rfl := ht.toText
  refine ⟨.fld none, ?_, (fun h => by cases h), rfl, rfl, rfl⟩
  simp only [Op.run]
  rw [M.bind_ok (derefSec_some hs), M.gets_apply, (fieldNamed_first p.mem name.toText x.fields).2.2 hn]

/-- The code violates C108. -/
theorem C108_violates : ¬ C108_statement ToyFloat := by
  intro h
  let c : FacCfg := ⟨⟨fun _ => .err .eof, fun _ => .err .eof⟩, .binary, false, false, 0⟩
  let p : PFac ToyFloat := { PFac.new default with mem := { sections := [⟨1, [], 0, 0, []⟩] } }
  obtain ⟨v, h1, h2, _⟩ := C108_absent c p 0 ⟨1, [], 0, 0, []⟩ .nil [] rfl .nil (fun g hg => by cases hg)
  rw [h c p 0 ⟨1, [], 0, 0, []⟩ .nil [] rfl .nil (fun g hg => by cases hg)] at h1
  exact h2 (Outcome.ok.inj (Prod.mk.inj h1).1).symm

/-- **C108** (messages).  `message:getProxyField(name)` is the field that was stored under the name, and an
error for another name; `factory.getMessage()` is the current message.  Nothing changes. -/
theorem C108_message (c : FacCfg) (p : PFac F) (m : MsgRef) (x : MsgObj) (hm : p.mem.messages[m]? = some x) (name : LVal F)
    (t : GoString) (ht : NameOf name t) :
    (∀ f, mapGet x.proxyFields t = some f →
      (Op.getProxyField (.msg (some m)) name).run c p = (.ok (.fld (some f)), p)) ∧
    (mapGet x.proxyFields t = none → ∃ e, (Op.getProxyField (.msg (some m)) name).run c p = (.err e, p)) ∧
    (Op.getMessage).run c p = (.ok (.msg p.message), p) := by
  obtain rfl := ht.toText
  have hd : (Op.derefMsg (some m) : M (PFac F) (MsgRef × MsgObj)) p = (.ok (m, x), p) := by simp only [Op.derefMsg, hm]
  refine ⟨fun f hf => ?_, fun hf => ⟨.wrap "lua" (.msg "no proxy field"), ?_⟩, rfl⟩
  · simp only [Op.run]
    rw [M.bind_ok hd]
    simp only [hf]
    rfl
  · simp only [Op.run]
    rw [M.bind_ok hd]
    simp only [hf]
    rfl

/-- A section with two fields of one name, the first of which is missing. -/
example : let mem : Mem ToyFloat := ⟨[⟨str "a", .val (.uint 255), 8, false⟩, ⟨str "a", .val (.uint 1), 8, false⟩],
      [⟨1, [], 0, 0, [0, 1]⟩], []⟩
    First mem (str "a") [0, 1] 0 ∧ Absent mem (str "b") [0, 1] ∧ (2 : Nat) ^ 8 - 1 = 255 := by
  refine ⟨⟨[], [1], _, rfl, rfl, rfl, by simp⟩, ?_, rfl⟩
  intro g hg y hy
  rcases List.mem_cons.1 hg with rfl | hg
  · cases hy; decide
  · rw [List.mem_singleton] at hg; subst hg; cases hy; decide

example : NameOf (F := ToyFloat) (.lua (.num (-20))) (str "-20") := .num _ (by decide)

end Gobufr
