import Verif.Proofs.Extend
import Verif.Spec.Stream
import Verif.Props.Message

/-!
# C115: which entries of the tables matter
-/

namespace Gobufr

open ExtendSpec
open Spec (runTimes)

/-- **C115** (templates).  The parser does the same with two groups of tables that say the same about the
ids the template leads to: its own, the members of the sequences among them, and 000000. -/
theorem C115_template (lk lk' : Lookup) (n : Nat) (ids : List ID) (h : ∀ id, Reached lk ids id → lk id = lk' id) :
    parse lk n ids = parse lk' n ids :=
  (follows_parse (strict := True) (S := Reached lk ids)
    ⟨.zero, fun id hid => ⟨fun _ => h id hid, fun _ e => h id hid ▸ e⟩, fun _ _ _ hid hd he _ hm => .member hid hd he hm⟩
    n fun _ hid => .top hid).1 trivial

/-- **C115** (templates, more entries).  A template that is parsed is parsed into the same tree when there
are more entries. -/
theorem C115_more_template (lk lk' : Lookup) (n : Nat) (ids : List ID) (t : Ast)
    (h : ∀ id d, lk id = .ok d → lk' id = .ok d) (ht : parse lk n ids = .ok t) : parse lk' n ids = .ok t :=
  (follows_parse (strict := False) (S := fun _ => True)
    ⟨trivial, fun id _ => ⟨fun h => h.elim, h id⟩, fun _ _ _ _ _ _ _ _ => trivial⟩ n fun _ _ => trivial).2 t ht

variable {F : Type} [GoFloat F]

/-- **C115** (messages).  A message is decoded to the same message, or rejected with the same error, with
tables that say the same about the ids its template leads to. -/
theorem C115_message (T : ID → Prop) (c c' : FacCfg) (hc : SameBut c c') (ht : SameOn T c.tables c'.tables)
    (s : Fac F) (hs : Within T (Runtime.run c s).2) :
    (Runtime.run c' s).1 = (Runtime.run c s).1 ∧ (Runtime.run c' s).2.r = (Runtime.run c s).2.r := by
  obtain ⟨h1, h2⟩ := (res_run hc ht.serves s hs).1 trivial
  exact ⟨h1.symm, h2.symm⟩

/-- **C115** (messages, more entries).  A message that is decoded is decoded to the same message when the
tables have entries for further ids. -/
theorem C115_more (c c' : FacCfg) (hc : SameBut c c') (ht : Grown c.tables c'.tables) (s s' : Fac F) (m : Message F)
    (h : Runtime.run c s = (.ok m, s')) :
    (Runtime.run c' s).1 = .ok m ∧ (Runtime.run c' s).2.r = s'.r := by
  obtain ⟨h1, h2⟩ := (res_run hc ht.serves s (fun _ _ _ _ _ _ => trivial)).2 m (congrArg Prod.fst h)
  rw [h] at h2
  exact ⟨h1, h2.symm⟩

/-- **C115** (streams, more entries). -/
theorem C115_stream (c c' : FacCfg) (hc : SameBut c c') (ht : Grown c.tables c'.tables) : ∀ (k : Nat) (s t s' : Fac F)
    (ms : List (Message F)), t.r = s.r → runTimes c k s = (.ok ms, s') →
    ∃ t', runTimes c' k t = (.ok ms, t') ∧ t'.r = s'.r
  | 0, s, t, s', ms, hr, h => by
    cases h
    exact ⟨t, rfl, hr⟩
  | k + 1, s, t, s', ms, hr, h => by
    obtain ⟨m, s1, h1, h⟩ := M.bind_eq_ok.1 h
    obtain ⟨ms', s2, h2, h⟩ := M.bind_eq_ok.1 h
    cases h
    obtain ⟨e1, e2⟩ := C115_more c c' hc ht s s1 m h1
    obtain ⟨d1, d2⟩ := run_same c' (s := t) (t := s) hr
    obtain ⟨t2, h3, h4⟩ := C115_stream c c' hc ht k s1 (Runtime.run c' t).2 s' ms' (by rw [d2, e2]) h2
    exact ⟨t2, M.bind_eq_ok.2 ⟨m, _, eq_of_fst (d1.trans e1), M.bind_eq_ok.2 ⟨ms', t2, h3, rfl⟩⟩, h4⟩

namespace ExtendExample

/-- The entry of an element of `n` bits. -/
def bits (n : Int) : Bentry := { (default : Bentry) with unit := .numeric, nbits := n }

/-- Version 13 of the WMO tables with the elements `e`, and the local tables 1 with the elements `l`. -/
def tables (l e : List (ID × Bentry)) : Tables where
  getB n := if n = ⟨0, 0, 0, 13⟩ then .ok ⟨[], e⟩ else if n = ⟨0, 0, 0, 1⟩ then .ok ⟨[], l⟩ else .err .notExist
  getD n := if n = ⟨0, 0, 0, 13⟩ ∨ n = ⟨0, 0, 0, 1⟩ then .ok ⟨[], []⟩ else .err .notExist

def cfg (l e : List (ID × Bentry)) : FacCfg := ⟨tables l e, .binary, false, false, 100⟩

/-- A message with the template 012001 that uses the local tables 1. -/
def message : List UInt8 :=
  [0x42, 0x55, 0x46, 0x52, 0, 0, 48, 4] ++
  [0, 0, 22, 0, 0, 0, 0, 0, 0, 0, 0, 0, 0, 13, 1, 7, 0xE4, 1, 1, 0, 0, 0] ++
  [0, 0, 9, 0, 0, 1, 0x80, 0x0C, 0x01] ++ [0, 0, 5, 0, 0x12] ++ [0x37, 0x37, 0x37, 0x37]

/-- The numbers of fields of the sections. -/
def counts : Outcome (Message ToyFloat) → List Nat
  | .ok m => m.sections.map (·.fields.length)
  | _ => []

/-- Local tables that gain the element 012002, which no table had. -/
theorem grown : Grown (tables [] [(12001, bits 8)]) (tables [(12002, bits 4)] [(12001, bits 8)]) where
  b n := by
    unfold tables
    dsimp only
    split
    · exact .both fun id d => ⟨fun h => h, fun h => Or.inl h⟩
    · split
      · refine .both fun id d => ⟨fun h => (by cases h), fun h => Or.inr ?_⟩
        have hid : id = 12002 := by
          by_cases hid : id = 12002
          · exact hid
          · exfalso
            unfold TableB.lookup mapGet at h
            simp [hid, eq_comm] at h
            cases h
        subst hid
        rintro (⟨n, x, d, h1, h2⟩ | ⟨n, x, d, h1, h2⟩)
        · dsimp only at h1
          split at h1
          · cases h1
            rw [show TableB.lookup ⟨[], [(12001, bits 8)]⟩ 12002 = .err (.msg "ID not found") from by decide +kernel] at h2
            cases h2
          · split at h1
            · cases h1
              cases h2
            · cases h1
        · dsimp only at h1
          split at h1
          · cases h1
            cases h2
          · cases h1
      · exact .err _
  d n := by
    unfold tables
    dsimp only
    split
    · exact .both fun id d => ⟨fun h => h, fun h => Or.inl h⟩
    · exact .err _

end ExtendExample

open ExtendExample in
/-- The message is decoded with the first tables, and so with the others. -/
example : ∃ m, (Runtime.run (cfg [] [(12001, bits 8)]) (MessageExample.input message)).1 = .ok m ∧
    (Runtime.run (cfg [(12002, bits 4)] [(12001, bits 8)]) (MessageExample.input message)).1 = .ok m := by
  obtain ⟨m, hm⟩ := MessageExample.isOk_eq
    (o := (Runtime.run (cfg [] [(12001, bits 8)]) (MessageExample.input message)).1) (by decide +kernel)
  exact ⟨m, hm, (C115_more (cfg [] [(12001, bits 8)]) (cfg [(12002, bits 4)] [(12001, bits 8)]) rfl grown _ _ m
    (eq_of_fst hm)).1⟩

open ExtendExample in
/-- That the new entries are for ids that no table knew cannot be left out: when the local tables gain
an entry for 012001, the same bytes are another message. -/
theorem C115_shadow : ∃ m m' : Message ToyFloat,
    (Runtime.run (cfg [] [(12001, bits 8)]) (MessageExample.input message)).1 = .ok m ∧
    (Runtime.run (cfg [(12001, bits 4)] [(12001, bits 8)]) (MessageExample.input message)).1 = .ok m' ∧ m ≠ m' := by
  obtain ⟨m, hm⟩ := MessageExample.isOk_eq
    (o := (Runtime.run (cfg [] [(12001, bits 8)]) (MessageExample.input message)).1) (by decide +kernel)
  obtain ⟨m', hm'⟩ := MessageExample.isOk_eq
    (o := (Runtime.run (cfg [(12001, bits 4)] [(12001, bits 8)]) (MessageExample.input message)).1) (by decide +kernel)
  refine ⟨m, m', hm, hm', fun h => ?_⟩
  have h1 : counts (Runtime.run (cfg [] [(12001, bits 8)]) (MessageExample.input message)).1 =
      counts (Runtime.run (cfg [(12001, bits 4)] [(12001, bits 8)]) (MessageExample.input message)).1 := by
    rw [hm, hm', h]
  revert h1
  decide +kernel

open ExtendExample in
/-- The template of the message leads to 012001 and 000000 only; other widths of 012002 do not matter. -/
example : Within (fun id => id = 12001 ∨ id = 0)
    (Runtime.run (cfg [(12002, bits 4)] [(12001, bits 8)]) (MessageExample.input message)).2 ∧
    SameOn (fun id => id = 12001 ∨ id = 0) (tables [(12002, bits 4)] [(12001, bits 8)])
      (tables [(12002, bits 9)] [(12001, bits 8)]) := by
  constructor
  · intro u g hu hg
    have e1 : (Runtime.run (cfg [(12002, bits 4)] [(12001, bits 8)]) (MessageExample.input message)).2.ut =
        some ⟨[12001], 2, 6, 8⟩ := by decide +kernel
    have e2 : (Runtime.run (cfg [(12002, bits 4)] [(12001, bits 8)]) (MessageExample.input message)).2.tableGroup =
        some ⟨[⟨⟨[], [(12002, bits 4)]⟩, ⟨[], []⟩⟩, ⟨⟨[], [(12001, bits 8)]⟩, ⟨[], []⟩⟩]⟩ := by decide +kernel
    rw [e1] at hu
    rw [e2] at hg
    cases hu
    cases hg
    intro id hid
    induction hid with
    | zero => exact Or.inr rfl
    | top h => exact Or.inl (List.mem_singleton.1 h)
    | member _ hd he _ ih =>
      rcases ih with rfl | rfl
      · rw [show ChainGroup.lookup ⟨[⟨⟨[], [(12002, bits 4)]⟩, ⟨[], []⟩⟩, ⟨⟨[], [(12001, bits 8)]⟩, ⟨[], []⟩⟩]⟩ 12001 =
          .ok ⟨12001, .b (bits 8)⟩ from by decide +kernel] at hd
        cases hd
        cases he
      · rw [show ChainGroup.lookup ⟨[⟨⟨[], [(12002, bits 4)]⟩, ⟨[], []⟩⟩, ⟨⟨[], [(12001, bits 8)]⟩, ⟨[], []⟩⟩]⟩ 0 =
          .err (.msg "ID not found") from by decide +kernel] at hd
        cases hd
  · refine ⟨fun n => ?_, fun n => ?_⟩
    · unfold tables
      dsimp only
      split
      · exact .both fun _ _ => rfl
      · split
        · exact .both fun id hid => by rcases hid with rfl | rfl <;> decide +kernel
        · exact .err _
    · unfold tables
      dsimp only
      split
      · exact .both fun _ _ => rfl
      · exact .err _

end Gobufr
