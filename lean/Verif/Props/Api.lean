import Verif.Proofs.ApiSim
import Verif.Proofs.Stale
import Verif.Props.Stream

/-!
# Properties of what definition scripts do with messages (C95, C96, C97)
-/

namespace Gobufr
open Spec Objects

variable {F : Type} [GoFloat F]

/-! ## C95: objects only grow and everything is in its place -/

/-- **C95** (objects only grow).  Whatever a script does, with whatever errors caught or not: fields do
not change, sections keep their fields in order and messages their sections; unless it crashes, every
field is in exactly one section, every section in exactly one message, and the proxy fields of a message
are fields of that name. -/
theorem C95_script (c : FacCfg) (script : Prog F) (p p' : PFac F) (o : Outcome (LVal F)) (hp : Ready p)
    (h : script.run c p = (o, p')) : Objects.Grows p.mem p'.mem ∧ (¬ o.crashed → Ready p') := by
  have k := keeps_run c script p hp
  rw [h] at k
  exact k

/-- **C95** (from the start).  The same for a script run with a new factory, begun by looking for the
start signature. -/
theorem C95_new (c : FacCfg) (script : Prog F) (r : Reader F) (p' : PFac F) (o : Outcome (Option MsgRef))
    (ho : ¬ o.crashed) (h : PFac.runScript c script (PFac.new r) = (o, p')) : Ready p' := by
  have k := keeps_runScript c script (PFac.new r) (ready_new r)
  rw [h] at k
  exact k.2 ho

omit [GoFloat F] in
theorem fieldNamed_append {a b : Mem F} {name : GoString} (hab : a.fields <+: b.fields) (more : List FieldRef) :
    ∀ {fs : List FieldRef}, (∀ f ∈ fs, f < a.fields.length) →
    Op.fieldNamed b name (fs ++ more) =
      match Op.fieldNamed a name fs with
      | some f => some f
      | none => Op.fieldNamed b name more
  | [], _ => rfl
  | f :: fs, h => by
    have hf : b.fields[f]? = a.fields[f]? := by
      obtain ⟨t, ht⟩ := hab
      rw [← ht, List.getElem?_append_left (h f (by simp))]
    have ih := fieldNamed_append (name := name) hab more (fs := fs) fun g hg => h g (by simp [hg])
    simp only [List.cons_append, Op.fieldNamed, hf]
    split
    · rfl
    · exact ih

/-- **C95** (lookup).  What `section:getField(name)` once gave it gives for ever. -/
theorem C95_lookup (c : FacCfg) (script : Prog F) (p p' : PFac F) (o : Outcome (LVal F)) (hp : Ready p)
    (h : script.run c p = (o, p')) (i : SecRef) (name : LVal F) (f : FieldRef)
    (hf : (Op.getField (.sec i) name).run c p = (.ok (.fld (some f)), p)) :
    (Op.getField (.sec i) name).run c p' = (.ok (.fld (some f)), p') := by
  obtain ⟨g, -⟩ := C95_script c script p p' o hp h
  change (Op.derefSec i >>= fun x => M.gets fun p => LVal.fld (Op.fieldNamed p.mem name.toText x.fields)) p = _ at hf
  obtain ⟨x, q, h1, h2⟩ := M.bind_eq_ok.1 hf
  unfold Op.derefSec at h1
  split at h1
  · cases h1
  · rename_i x' hx
    cases h1
    have h2 : Op.fieldNamed p.mem name.toText x.fields = some f := LVal.fld.inj (Outcome.ok.inj (congrArg Prod.fst h2))
    obtain ⟨y, more, hy, -, -, -, e, -⟩ := g.sections i x hx
    change (Op.derefSec i >>= fun x => M.gets fun p => LVal.fld (Op.fieldNamed p.mem name.toText x.fields)) p' = _
    have hd : (Op.derefSec i : M (PFac F) SecObj) p' = (.ok y, p') := by unfold Op.derefSec; rw [hy]
    rw [M.bind_ok hd, M.gets_apply, e,
      fieldNamed_append g.fields more fun k hk => hp.owned.lt_fields (List.mem_of_getElem? hx) hk, h2]

/-- **C95** (count).  `section:getNumberOfFields()` never decreases. -/
theorem C95_count (c : FacCfg) (script : Prog F) (p p' : PFac F) (o : Outcome (LVal F)) (hp : Ready p)
    (h : script.run c p = (o, p')) (i : SecRef) (n : Int)
    (hn : (Op.getNumberOfFields (.sec i)).run c p = (.ok (.lua (.num n)), p)) :
    ∃ n', (Op.getNumberOfFields (.sec i)).run c p' = (.ok (.lua (.num n')), p') ∧ n ≤ n' := by
  obtain ⟨g, -⟩ := C95_script c script p p' o hp h
  change (Op.derefSec i >>= fun x => pure (LVal.lua (.num x.fields.length))) p = _ at hn
  obtain ⟨x, q, h1, h2⟩ := M.bind_eq_ok.1 hn
  unfold Op.derefSec at h1
  split at h1
  · cases h1
  · rename_i x' hx
    cases h1
    have h2 : ((x.fields.length : Nat) : Int) = n :=
      LuaVal.num.inj (LVal.lua.inj (Outcome.ok.inj (congrArg Prod.fst h2)))
    obtain ⟨y, more, hy, -, -, -, e, -⟩ := g.sections i x hx
    have hd : (Op.derefSec i : M (PFac F) SecObj) p' = (.ok y, p') := by unfold Op.derefSec; rw [hy]
    refine ⟨y.fields.length, ?_, ?_⟩
    · change (Op.derefSec i >>= fun x => pure (LVal.lua (.num x.fields.length))) p' = _
      rw [M.bind_ok hd]
      rfl
    · rw [← h2, e, List.length_append]
      omega

namespace ApiExample

def bytes (bs : List UInt8) : PFac ToyFloat := PFac.new (.bin ⟨BitReader.bitsOfBytes bs, 0⟩)

/-- A script that catches the failure to read a field of an unknown type. -/
def careful : Prog ToyFloat :=
  .call (.newMessage .nil) fun _ =>
  .call (.newSection (Lua.num 7) (Lua.text "Test")) fun s =>
  .call (.newField (Lua.text "first") (Lua.global "UINT") (Lua.num 8) (.lua (.bool true))) fun _ =>
  .pcall (.call (.newField (Lua.text "second") (Lua.num 17) (Lua.num 16) .nil) .ret) fun _ =>
  .call (.newField (Lua.text "first") (Lua.global "UINT") (Lua.num 8) .nil) fun _ => .ret s

/-- Look a field up twice, adding another of the same name between. -/
def twice : Prog ToyFloat :=
  careful.bind fun s =>
  .call (.getField s (Lua.text "first")) fun a =>
  .call (.newField (Lua.text "first") (Lua.global "UINT") (Lua.num 8) .nil) fun _ =>
  .call (.getField s (Lua.text "first")) fun b =>
  if a = b then .ret a else .error .eof

end ApiExample

open ApiExample in
/-- A script with a caught error: two fields remain, both in the section. -/
example : ∃ p', careful.run MessageExample.cfg (bytes [5, 6]) = (.ok (.sec 0), p') ∧ Ready p' ∧
    p'.mem.sections = [⟨7, str "Test", 0, 0, [0, 1]⟩] ∧ p'.mem.messages = [⟨[], [0], [(str "first", 0)]⟩] := by
  have h : (careful.run MessageExample.cfg (bytes [5, 6])).1 = .ok (.sec 0) := by decide +kernel
  refine ⟨_, eq_of_fst h, (C95_script _ _ _ _ _ (ready_new _) (eq_of_fst h)).2 (fun h => h), ?_, ?_⟩ <;> decide +kernel

open ApiExample in
/-- `getField` gives the same field after another of the same name was added. -/
example : (twice.run MessageExample.cfg (bytes [5, 6, 7])).1 = .ok (.fld (some 0)) := by decide +kernel

open ApiExample MessageExample in
/-- A message decoded by the definition scripts of edition 4: 5 sections, 18 fields in section 1. -/
example : ∃ p', PFac.runScript cfg Lua.boot (bytes (body ++ stop)) = (.ok (some 0), p') ∧ Ready p' ∧
    p'.mem.sections.length = 5 ∧
    (Op.getNumberOfFields (.sec 1)).run cfg p' = (.ok (.lua (.num 18)), p') := by
  have h : (PFac.runScript cfg Lua.boot (bytes (body ++ stop))).1 = .ok (some 0) := by decide +kernel
  exact ⟨_, eq_of_fst h, C95_new cfg _ _ _ (.ok (some 0)) (fun h => h) (eq_of_fst h), by decide +kernel, by decide +kernel⟩

/-! ## C96: a new field belongs to the message being built -/

/-- **C96**, as it should be: in a factory some script has used, a field that a call creates belongs to
the factory's current message. -/
def C96_statement (F : Type) [GoFloat F] : Prop :=
  ∀ (c : FacCfg) (r : Reader F) (script : Prog F) (v : LVal F) (p p' : PFac F) (op : Op F) (f : FieldRef) (i : MsgRef),
    script.run c (PFac.new r) = (.ok v, p) → p.message = some i → op.run c p = (.ok (.fld (some f)), p') →
    p.mem.fields.length ≤ f → Within p'.mem f i

namespace ApiExample

/-- A second message is begun, but no section of it. -/
def hasty : Prog ToyFloat :=
  .call (.newMessage .nil) fun _ =>
  .call (.newSection (Lua.num 0) (Lua.text "Old")) fun _ =>
  .call (.newMessage .nil) fun m => .ret m

def late : Op ToyFloat := .newField (Lua.text "late") (Lua.global "UINT") (Lua.num 8) (.lua (.bool true))

def after : PFac ToyFloat := (hasty.run MessageExample.cfg (bytes [5])).2

end ApiExample

open ApiExample in
/-- **C96** is violated: after `newMessage` the factory still has the last section of the old message, and
`newField` puts the field there; the new message only gets it as a proxy field. -/
theorem C96_violates : ¬ C96_statement ToyFloat := by
  intro h
  have h1 : hasty.run MessageExample.cfg (bytes [5]) = (.ok (.msg (some 1)), after) :=
    eq_of_fst (by decide +kernel)
  have h2 : late.run MessageExample.cfg after = (.ok (.fld (some 0)), (late.run MessageExample.cfg after).2) :=
    eq_of_fst (by decide +kernel)
  obtain ⟨m, j, s, hm, hj, -, -⟩ := h _ _ _ _ _ _ _ 0 1 h1 (by decide +kernel) h2 (by decide +kernel)
  have hm' : (late.run MessageExample.cfg after).2.mem.messages[1]? = some ⟨[], [], [(str "late", 0)]⟩ := by
    decide +kernel
  rw [hm'] at hm
  cases hm
  cases hj

/-- **C96** (partial).  Once the current section is one of the current message, it stays so until a new
message is begun, and every field created goes into that message. -/
theorem C96_stays_partial (c : FacCfg) (script : Prog F) (hs : script.KeepsMessage) (p p' : PFac F)
    (o : Outcome (LVal F)) (hp : Ready p) (hc : Current p) (h : script.run c p = (o, p')) (ho : ¬ o.crashed) :
    Current p' ∧ p'.message = p.message ∧ ∀ i f, p.message = some i → p.mem.fields.length ≤ f →
      f < p'.mem.fields.length → Within p'.mem f i := by
  have k := (stays_run c hs).2 p hp hc
  rw [h] at k
  exact k ho

/-- **C96** (partial).  A script that begins a message and at once a section of it creates no field
outside that message, if it begins no other. -/
theorem C96_partial (c : FacCfg) (path number description : LVal F) (script : LVal F → LVal F → Prog F)
    (hs : ∀ m s, (script m s).KeepsMessage) (p p' : PFac F) (o : Outcome (LVal F)) (hp : Ready p)
    (h : (Prog.call (.newMessage path) fun m => .call (.newSection number description) (script m)).run c p = (o, p'))
    (ho : ¬ o.crashed) :
    p'.message = some p.mem.messages.length ∧ ∀ f, p.mem.fields.length ≤ f → f < p'.mem.fields.length →
      Within p'.mem f p.mem.messages.length := by
  have k0 := keeps_newMessage path.toText p hp
  obtain ⟨p1, h1, hm, hf⟩ : ∃ p1, PFac.newMessage path.toText p = (.ok p.mem.messages.length, p1) ∧
      p1.message = some p.mem.messages.length ∧ p1.mem.fields = p.mem.fields := ⟨_, rfl, rfl, rfl⟩
  rw [h1] at k0
  have hp1 := k0.2 (fun h => h)
  have k1 := keeps_newSection number.plain.toInteger description.toText p1 hp1
  have h2 := PFac.newSection_eq (p := p1) number.plain.toInteger description.toText hm
  rw [h2] at k1
  have hp2 := k1.2 (fun h => h)
  change ((PFac.newMessage path.toText >>= fun i => pure (LVal.msg (some i))) >>= _) p = _ at h
  rw [M.bind_assoc, M.bind_ok h1] at h
  change ((PFac.newSection number.plain.toInteger description.toText >>= fun s => pure (LVal.sec s)) >>= _) p1 = _ at h
  rw [M.bind_assoc, M.bind_ok h2] at h
  have hlt := hp1.message _ hm
  obtain ⟨x, hx⟩ : ∃ x, p1.mem.messages[p.mem.messages.length]? = some x := ⟨_, List.getElem?_eq_getElem hlt⟩
  have := C96_stays_partial c (script _ _) (hs _ _) _ p' o hp2 ⟨_, _, _, hm, getElem?_modify' hx, rfl, by simp⟩ h ho
  refine ⟨this.2.1.trans hm, fun f h1 h2 => this.2.2 _ f hm ?_ h2⟩
  change p1.mem.fields.length ≤ f
  rw [hf]
  exact h1

open ApiExample in
/-- The new message after an old one gets the field. -/
example : Within (Prog.run MessageExample.cfg (.call (.newMessage .nil) fun _ =>
      .call (.newSection (Lua.num 0) (Lua.text "New")) fun _ => .call late .ret) after).2.mem 0 2 := by
  have hr : Ready after := (C95_script _ hasty _ after (.ok (.msg (some 1))) (ready_new _)
    (eq_of_fst (by decide +kernel))).2 (fun h => h)
  have h1 : (Prog.run MessageExample.cfg (.call (.newMessage .nil) fun _ =>
      .call (.newSection (Lua.num 0) (Lua.text "New")) fun _ => .call late .ret) after).1 = .ok (.fld (some 0)) := by
    decide +kernel
  have h2 := C96_partial MessageExample.cfg .nil (Lua.num 0) (Lua.text "New") (fun _ _ => .call late .ret)
    (fun _ _ => .call _ _ (by intro path h; cases h) fun v => .ret v) after _ _ hr (eq_of_fst h1) (fun h => h)
  have h3 : after.mem.messages.length = 2 := by decide +kernel
  have h4 : after.mem.fields.length = 0 := by decide +kernel
  have h5 := h2.2 0 (by omega) (by decide +kernel)
  rw [h3] at h5
  exact h5

/-! ## C97: a message keeps its content when the next one is decoded -/

/-- **C97** (one message).  A run of the definition scripts, in a factory that may hold anything from
earlier runs, leaves all existing objects as they are; it returns a new message, which holds the values
the same input gives in a factory without a past, or fails in the same way, and leaves the reader in
the same place. -/
theorem C97_run (c : FacCfg) (p : PFac F) :
    Untouched p.mem (PFac.runScript c Lua.boot p).2.mem ∧
    (PFac.runScript c Lua.boot p).2.r = (Runtime.run c (Fac.new p.r)).2.r ∧
    Delivers p.mem (PFac.runScript c Lua.boot p).2.mem (PFac.runScript c Lua.boot p).1
      (Runtime.run c (Fac.new p.r)).1 := by
  obtain ⟨h1, h2, h3⟩ := runScript_delivers c (p := p) (s := ⟨p.r, none, p.ut, p.tableGroup⟩) rfl rfl rfl
  obtain ⟨e1, e2⟩ := run_same c (s := ⟨p.r, none, p.ut, p.tableGroup⟩) (t := Fac.new p.r) rfl
  exact ⟨h1, h2.trans e2, e1 ▸ h3⟩

omit [GoFloat F] in
theorem Objects.Untouched.section? {a b : Mem F} (h : Untouched a b) {i : SecRef} {x : Section F}
    (hx : a.section? i = some x) : b.section? i = some x := by
  unfold Mem.section? at hx ⊢
  split at hx
  · cases hx
  · rename_i y hy
    rw [lookup_prefix h.sections hy]
    exact view_mono h.fields hx

omit [GoFloat F] in
theorem Objects.Untouched.message? {a b : Mem F} (h : Untouched a b) {i : MsgRef} {m : Message F}
    (hm : a.message? i = some m) : b.message? i = some m := by
  unfold Mem.message? at hm ⊢
  split at hm
  · cases hm
  · rename_i y hy
    rw [lookup_prefix h.messages hy]
    dsimp only
    split at hm
    · rename_i ss ps h1 h2
      rw [derefAll_mono h1 fun _ _ _ hx => h.section? hx, derefProxies_mono h2 fun _ _ hx => lookup_prefix h.fields hx]
      exact hm
    · cases hm

/-- **C97** (earlier messages).  A message read through its reference before the run reads the same
after it, also if the run fails or crashes. -/
theorem C97_earlier (c : FacCfg) (p : PFac F) (i : MsgRef) (m : Message F) (h : p.mem.message? i = some m) :
    (PFac.runScript c Lua.boot p).2.mem.message? i = some m := (C97_run c p).1.message? h

/-- `k` runs with objects. -/
def objectTimes (c : FacCfg) : Nat → M (PFac F) (List (Option MsgRef))
  | 0 => pure []
  | k + 1 => do
    let m ← PFac.runScript c Lua.boot
    let ms ← objectTimes c k
    pure (m :: ms)

/-- **C97** (streams).  When the messages of a stream are decoded one after the other in one factory, the
references returned lead to distinct, new objects, and after the last run each of them still holds
the values its run decoded. -/
theorem C97_stream (c : FacCfg) : ∀ (k : Nat) (p : PFac F) (s s' : Fac F) (ms : List (Message F)), p.r = s.r →
    runTimes c k s = (.ok ms, s') →
    ∃ p', objectTimes c k p = (.ok ((List.range' p.mem.messages.length k).map some), p') ∧ p'.r = s'.r ∧
      Untouched p.mem p'.mem ∧ derefAll p'.mem.message? (List.range' p.mem.messages.length k) = some ms
  | 0, p, s, s', ms, hr, h => by
    cases h
    exact ⟨p, rfl, hr, ⟨List.prefix_refl _, List.prefix_refl _, List.prefix_refl _⟩, rfl⟩
  | k + 1, p, s, s', ms, hr, h => by
    obtain ⟨m, s1, h1, h⟩ := M.bind_eq_ok.1 h
    obtain ⟨ms', s2, h2, h⟩ := M.bind_eq_ok.1 h
    cases h
    obtain ⟨u, hr1, hd⟩ := C97_run c p
    obtain ⟨e1, e2⟩ := run_same c (s := Fac.new p.r) (t := s) hr
    rw [e1, h1] at hd
    rw [e2, h1] at hr1
    rcases hx : PFac.runScript c Lua.boot p with ⟨o, p1⟩
    rw [hx] at u hr1 hd
    cases o with
    | err e => exact hd.elim
    | panic w => exact hd.elim
    | diverge => exact hd.elim
    | ok i =>
      obtain ⟨rfl, hm, hlen⟩ := hd
      obtain ⟨p2, k1, k2, k3, k4⟩ := C97_stream c k p1 s1 s' ms' hr1 h2
      refine ⟨p2, ?_, k2, ⟨u.fields.trans k3.fields, u.sections.trans k3.sections, u.messages.trans k3.messages⟩, ?_⟩
      · unfold objectTimes
        rw [M.bind_ok hx, M.bind_ok k1, hlen, List.range'_succ]
        rfl
      · rw [hlen] at k4
        rw [List.range'_succ, derefAll, k3.message? hm, k4]

open ApiExample MessageExample in
/-- Two messages of a stream, decoded in a factory that another script has used: they are the objects 2
and 3. -/
example : ∃ ms p' s', runTimes cfg 2 (input (body ++ stop ++ [7, 0x42] ++ (body3 ++ stop) ++ [7])) = (.ok ms, s') ∧
    objectTimes cfg 2 { after with r := (bytes (body ++ stop ++ [7, 0x42] ++ (body3 ++ stop) ++ [7])).r } =
      (.ok [some 2, some 3], p') ∧ derefAll p'.mem.message? [2, 3] = some ms ∧
    p'.mem.messages.take 2 = after.mem.messages := by
  obtain ⟨ms, hms⟩ := isOk_eq (show (runTimes cfg 2
    (input (body ++ stop ++ [7, 0x42] ++ (body3 ++ stop) ++ [7]))).1.isOk = true by decide +kernel)
  have h3 : after.mem.messages.length = 2 := by decide +kernel
  obtain ⟨p', h1, -, h2, h4⟩ := C97_stream cfg 2
    { after with r := (bytes (body ++ stop ++ [7, 0x42] ++ (body3 ++ stop) ++ [7])).r } _ _ ms rfl (eq_of_fst hms)
  change _ = (Outcome.ok ((List.range' after.mem.messages.length 2).map some), p') at h1
  change derefAll _ (List.range' after.mem.messages.length 2) = _ at h4
  rw [h3] at h1 h4
  refine ⟨ms, p', _, eq_of_fst hms, h1, h4, ?_⟩
  obtain ⟨t, ht⟩ := h2.messages
  change after.mem.messages ++ t = _ at ht
  rw [← ht, ← h3, List.take_left]

end Gobufr
