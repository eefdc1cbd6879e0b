import Verif.Spec.Crash
import Verif.Proofs.Overrun
import Verif.Proofs.Only
import Verif.Proofs.Safe

/-!
# Lemmas for C94: crashes at bitmaps
-/

set_option linter.unusedSectionVars false
set_option linter.unusedSimpArgs false

namespace Gobufr
namespace EncodeSpec
open Flat Safety

variable {F τ : Type} {c : VisCfg} {At : List τ → Reader F → Prop}

/-- What comes after does not matter. -/
theorem Stuck.extend [GoFloat F] {W : Wire F τ} {b : Bool} {why : Why} {x : Ctx} {ts : List Ast} {bits : List τ}
    (h : Stuck (F := F) W b why x ts bits) (us : List Ast) : Stuck (F := F) W b why x (ts ++ us) bits := by
  induction h with
  | values h hl => exact .values h hl
  | marker h => exact .marker h
  | stray h1 h2 h3 => exact .stray h1 h2 h3
  | unset h1 h2 h3 h4 => exact .unset h1 h2 h3 h4
  | reference h1 h2 => exact .reference h1 h2
  | unopened h1 h2 => exact .unopened h1 h2
  | after h _ ih =>
    rw [List.append_assoc]
    exact .after h ih
  | sequence _ ih =>
    rw [List.append_assoc] at ih
    exact .sequence ih
  | notPresent _ ih =>
    rw [List.append_assoc] at ih
    exact .notPresent ih
  | fixed _ ih =>
    rw [List.append_assoc] at ih
    exact .fixed ih
  | op204 h _ ih =>
    rw [List.append_assoc] at ih
    exact .op204 h ih
  | op204end h h' _ ih =>
    rw [List.append_assoc] at ih
    exact .op204end h h' ih
  | delayed h1 hl hv ha hn _ ih =>
    rw [List.append_assoc] at ih
    exact .delayed h1 hl hv ha hn ih
  | within h0 hz h1 h2 hc hb hne hn h _ => exact .within h0 hz h1 h2 hc hb hne hn h

/-- The same symbols by other rules. -/
theorem Zero.mono [GoFloat F] {W W' : Wire F τ} (h : ∀ info b vs, W info b vs → W' info b vs) {b : Bool} {d : Desc} {bits : List τ}
    {is : List (Datum F)} (hz : Zero W b d bits is) : Zero W' b d bits is := by
  cases hz with
  | off h1 => exact .off h1
  | on h1 hw => exact .on h1 (h _ _ _ hw)

theorem Stuck.mono [GoFloat F] {W W' : Wire F τ} (h : ∀ info b vs, W info b vs → W' info b vs) {b : Bool} {why : Why} {x : Ctx}
    {ts : List Ast} {bits : List τ} (hs : Stuck (F := F) W b why x ts bits) : Stuck (F := F) W' b why x ts bits := by
  have hm : ∀ {x y : Ctx} {ts : List Ast} {bits : List τ} {is : List (Datum F)}, Coded W b x ts bits is y → Coded W' b x ts bits is y :=
    fun hc => hc.mono fun _ _ _ hw => h _ _ _ hw
  induction hs with
  | values h1 hl =>
    obtain ⟨x1, x2, x3, zb, b1, b2, b3, zs, i1, i2, i3, n, map, h0, hz, h1, h2, hc, hb, hne, hn, h3, rfl, rfl, rfl⟩ := h1
    exact .values ⟨x1, x2, x3, zb, b1, b2, b3, zs, i1, i2, i3, n, map, h0, hz.mono h, hm h1, hm h2, hc, hb, hne, hn, hm h3, rfl, rfl, rfl⟩ hl
  | marker h => exact .marker h
  | stray h1 h2 h3 => exact .stray h1 h2 h3
  | unset h1 h2 h3 h4 => exact .unset (h1.mono h) (hm h2) (hm h3) h4
  | reference h1 h2 => exact .reference h1 (h _ _ _ h2)
  | unopened h1 h2 => exact .unopened h1 h2
  | after h _ ih => exact .after (hm h) ih
  | sequence _ ih => exact .sequence ih
  | notPresent _ ih => exact .notPresent ih
  | fixed _ ih => exact .fixed ih
  | op204 h _ ih => exact .op204 h ih
  | op204end h h' _ ih => exact .op204end h h' ih
  | delayed h1 hl hv ha hn _ ih => exact .delayed (hm h1) hl hv ha hn ih
  | within h0 hz h1 h2 hc hb hne hn _ ih => exact .within h0 (hz.mono h) (hm h1) (hm h2) hc hb hne hn ih

/-! ## What is known of a context -/

/-- What is referred to exists, and what is in table B can be read. -/
structure Sound (z : Bool) (x : Ctx) : Prop where
  back : ∀ n, x.back = some n → n ≤ x.seen.length
  targets : ∀ t ∈ x.targets, t < x.seen.length
  seen : ∀ nd ∈ x.seen, ∀ td, nd.d = some td → legible z td = true

theorem Sound.add {z : Bool} {x : Ctx} (h : Sound z x) {is : List (Datum F)} (hi : ∀ i ∈ is, ∀ td, i.desc.d = some td → legible z td = true) :
    Sound z (x.add is) := by
  refine ⟨fun n hn => ?_, fun t ht => ?_, fun nd hnd td htd => ?_⟩
  · have := h.back n hn
    simp only [Ctx.add, List.length_append]
    omega
  · have := h.targets t ht
    simp only [Ctx.add, List.length_append]
    omega
  · simp only [Ctx.add, List.mem_append, List.mem_map] at hnd
    rcases hnd with hnd | ⟨i, h1, rfl⟩
    · exact h.seen nd hnd td htd
    · exact hi i h1 td htd

theorem tame_cons {z : Bool} {m : Ast} {ms : List Ast} (h : tame z (m :: ms) = true) : m.descriptor.all (legible z) = true ∧ tame z ms = true := by
  unfold tame at *
  simp only [ParserSpec.nodesL, List.all_append, Bool.and_eq_true] at h
  refine ⟨?_, h.2⟩
  have hm : m ∈ ParserSpec.nodes m := by cases m <;> simp [ParserSpec.nodes]
  exact List.all_eq_true.1 h.1 m hm

theorem tame_append {z : Bool} {ms ts : List Ast} : tame z (ms ++ ts) = (tame z ms && tame z ts) := by
  induction ms with
  | nil => rfl
  | cons m ms ih =>
    unfold tame at *
    simp only [List.cons_append, ParserSpec.nodesL, List.all_append, ih, Bool.and_assoc]

theorem tame_repeat {z : Bool} {ms : List Ast} (h : tame z ms = true) : ∀ n, tame z (List.replicate n ms).flatten = true
  | 0 => rfl
  | n + 1 => by
    rw [List.replicate_succ, List.flatten_cons, tame_append, h, tame_repeat h n]
    rfl

theorem Assocs.legible [GoFloat F] {W : Wire F τ} {d : Desc} {ws : List Int} {b : List τ} {is : List (Datum F)} {z : Bool}
    (h : Assocs W d ws b is) (hd : legible z d = true) : ∀ i ∈ is, ∀ td, i.desc.d = some td → Safety.legible z td = true := by
  intro i hi td htd
  rw [assocs_desc h i hi] at htd
  cases htd
  exact hd

theorem Zero.legible [GoFloat F] {W : Wire F τ} {d : Desc} {c : Bool} {b : List τ} {is : List (Datum F)} {z : Bool}
    (h : Zero W c d b is) (hd : legible z d = true) : ∀ i ∈ is, ∀ td, i.desc.d = some td → Safety.legible z td = true := by
  cases h with
  | off => simp
  | on => simpa using hd

theorem tame_inner {z : Bool} {m : Ast} {ms ts : List Ast} (h : tame z (m :: ts) = true)
    (hn : ParserSpec.nodes m = m :: ParserSpec.nodesL ms) : tame z ms = true ∧ tame z ts = true := by
  unfold tame at *
  simp only [ParserSpec.nodesL, hn, List.all_append, List.cons_append, List.all_cons, Bool.and_eq_true] at h
  exact ⟨h.2.1, h.2.2⟩

theorem selected_lt {bits : List Nat} {n : Nat} (h : bits.length ≤ n) : ∀ t ∈ selected bits n, t < n := by
  rw [← zeros_selected]
  have key : ∀ (bits : List Nat) (lo : Nat), ∀ t ∈ zeros bits lo, t < lo + bits.length := by
    intro bits
    induction bits with
    | nil => intro lo t ht; cases ht
    | cons b bs ih =>
      intro lo t ht
      simp only [zeros] at ht
      split at ht
      · rcases List.mem_cons.1 ht with rfl | ht
        · simp
        · have := ih _ t ht
          simp only [List.length_cons]
          omega
      · have := ih _ t ht
        simp only [List.length_cons]
        omega
  intro t ht
  have := key _ _ t ht
  omega

theorem Sound.begin {z : Bool} {x : Ctx} (h : Sound z x) : Sound z x.begin := by
  unfold Ctx.begin
  split
  · refine { h with back := fun n hn => ?_ }
    cases hn
    show x.back.getD x.seen.length ≤ x.seen.length
    cases hb : x.back with
    | none => exact Nat.le_refl _
    | some n => exact h.back n hb
  · exact h

theorem Coded.sound [GoFloat F] {W : Wire F τ} {b z : Bool} {x y : Ctx} {ts : List Ast} {bits : List τ} {is : List (Datum F)}
    (h : Coded W b x ts bits is y) (ht : tame z ts = true) (hx : Sound z x) : Sound z y := by
  induction h with
  | nil => exact hx
  | element he ha hw _ ih =>
    obtain ⟨h1, h2⟩ := tame_cons ht
    refine ih h2 (hx.add fun i hi => ?_)
    rcases List.mem_append.1 hi with hi | hi
    · exact ha.legible (by simpa [Ast.descriptor] using h1) i hi
    · rw [List.mem_singleton.1 hi]
      intro td htd
      cases htd
      simpa [Ast.descriptor] using h1
  | absent _ ih => exact ih (tame_cons ht).2 hx
  | significance he hw _ ih =>
    obtain ⟨h1, h2⟩ := tame_cons ht
    refine ih h2 (hx.add ?_)
    simpa [Ast.descriptor] using h1
  | sequence _ ih | notPresent _ ih =>
    obtain ⟨h1, h2⟩ := tame_inner ht rfl
    exact ih (by rw [tame_append, h1, h2]; rfl) hx
  | fixed _ ih =>
    obtain ⟨h1, h2⟩ := tame_inner ht rfl
    exact ih (by rw [tame_append, tame_repeat h1, h2]; rfl) hx
  | delayed _ hl hv ha hn _ ih1 ih2 =>
    obtain ⟨h1, h2⟩ := tame_inner ht rfl
    have h3 := h1
    rw [show ∀ (m : Ast) ms, m :: ms = [m] ++ ms from fun _ _ => rfl, tame_append, Bool.and_eq_true] at h3
    exact ih2 (by rw [tame_append, tame_repeat h3.2, h2]; rfl) (ih1 h3.1 hx)
  | op201 _ ih | op202 _ ih | op207 _ ih | op208 _ ih => exact ih (tame_cons ht).2 { hx with }
  | op203end _ _ ih => exact ih (tame_cons ht).2 hx
  | op204 _ _ ih | op204end _ _ _ ih =>
    obtain ⟨h1, h2⟩ := tame_inner ht rfl
    exact ih (by rw [tame_append, h1, h2]; rfl) { hx with }
  | op205 hw _ ih =>
    obtain ⟨h1, h2⟩ := tame_cons ht
    refine ih h2 (hx.add ?_)
    simpa [Ast.descriptor] using h1
  | @op206 x y ts ms bs is d m vb vs hw _ ih =>
    obtain ⟨h1, h2⟩ := tame_inner ht rfl
    refine ih h2 (hx.add ?_)
    have h3 := (tame_cons h1).1
    simp only [List.mem_singleton, forall_eq]
    intro td htd
    rw [htd] at h3
    simpa using h3
  | op235 _ ih => exact ih (tame_cons ht).2 { hx with back := fun _ h => by cases h }
  | op237end _ ih => exact ih (tame_cons ht).2 { hx with }
  | bitmap hd ha hz _ hb _ ih1 ih2 =>
    obtain ⟨h1, h2⟩ := tame_inner ht rfl
    obtain ⟨h3, -⟩ := tame_cons ht
    have h4 := ih1 h1 { hx.add (hz.legible (by simpa [Ast.descriptor] using h3)) with }
    exact ih2 h2 { h4 with }
  | recall hd hz _ ih =>
    obtain ⟨h1, h2⟩ := tame_inner ht rfl
    obtain ⟨h3, -⟩ := tame_cons ht
    exact ih h2 { hx.add (hz.legible (by simpa [Ast.descriptor] using h3)) with }
  | @assessment x x1 x2 x3 y ts as ms bm zb b1 b2 b3 bs zs i1 i2 i3 is d n map h0 hz _ _ hc hb hne hn _ hl _ ih1 ih2 ih3 ih4 =>
    obtain ⟨h3, h4⟩ := tame_cons ht
    have h5 : tame z [bm] = true ∧ tame z as = true ∧ tame z ms = true := by
      unfold tame at *
      simp only [ParserSpec.nodesL, ParserSpec.nodes, List.all_append, List.cons_append, List.all_cons, Bool.and_eq_true, List.append_nil] at ht ⊢
      exact ⟨ht.2.1.1.1, ht.2.1.1.2, ht.2.1.2⟩
    have hb0 := hx.begin
    unfold Ctx.begin at hb0
    rw [if_pos h0] at hb0
    have s1 := ih1 h5.1 (hb0.add (hz.legible (by simpa [Ast.descriptor] using h3)))
    have s2 := ih2 h5.2.1 s1
    refine ih4 h4 (ih3 h5.2.2 { s2 with targets := fun t ht => ?_ })
    exact Nat.lt_of_lt_of_le (selected_lt hn t ht) (s2.back n hb)
  | @marker x y ts bs is d td a e t rest vb vs htg hs h0 he hw _ ih =>
    obtain ⟨h1, h2⟩ := tame_cons ht
    have h3 : Sound z { x with targets := rest } := ⟨hx.back, fun t ht => hx.targets t (by rw [htg]; exact List.mem_cons_of_mem _ ht), hx.seen⟩
    refine ih h2 (h3.add ?_)
    simpa [Ast.descriptor] using h1

/-! ## What does not change, whatever the outcome -/

/-- The bitmap in force and the number of subsets are left alone, whatever the outcome. -/
def Leaves (m : M (State F) α) : Prop := ∀ f, (m f).2.current = f.current ∧ (m f).2.subsets = f.subsets

namespace Leaves

theorem pure (a : α) : Leaves (Pure.pure a : M (State F) α) := fun _ => ⟨rfl, rfl⟩

theorem bind {m : M (State F) α} {k : α → M (State F) β} (hm : Leaves m) (hk : ∀ a, Leaves (k a)) : Leaves (m >>= k) := by
  intro f
  have h := hm f
  rw [M.bind_apply]
  rcases hr : m f with ⟨o, f'⟩
  rw [hr] at h
  cases o with
  | ok a => exact ⟨((hk a f').1).trans h.1, ((hk a f').2).trans h.2⟩
  | err e => exact h
  | panic w => exact h
  | diverge => exact h

theorem look (g : State F → Outcome α) : Leaves (fun f => (g f, f)) := fun _ => ⟨rfl, rfl⟩

theorem modify (g : State F → State F) (h : ∀ f, (g f).current = f.current ∧ (g f).subsets = f.subsets) : Leaves (M.modify g) := h

theorem repeatM {m : M (State F) Unit} (hm : Leaves m) : ∀ k, Leaves (Vis.repeatM m k)
  | 0 => pure ()
  | k + 1 => bind hm fun _ => repeatM hm k

variable [GoFloat F]

theorem build (d : NodeDesc) (info : PackingInfo F) : Leaves (Flat.build c d info) := by
  unfold Flat.build
  refine bind (fun f => ?_) fun v => ?_
  · unfold M.zoom
    rcases c.unpacker.unpack info f.r with ⟨o, r⟩
    exact ⟨rfl, rfl⟩
  · intro f
    dsimp only
    split <;> exact ⟨rfl, rfl⟩

theorem attachAll (i : Nat) : ∀ js, Leaves (Flat.attachAll (F := F) i js)
  | [] => pure ()
  | _ :: js => bind (modify _ fun _ => ⟨rfl, rfl⟩) fun _ => attachAll i js

theorem buildAssocs (d : Desc) : ∀ as, Leaves (Flat.buildAssocs (F := F) c d as)
  | [] => pure _
  | a :: as => by
    unfold Flat.buildAssocs
    exact (build _ _).bind fun i => (show Leaves (attachTo i a.sig) from fun _ => ⟨rfl, rfl⟩).bind fun _ =>
      (buildAssocs d as).bind fun _ => pure _

theorem buildElement (d : Desc) : Leaves (Flat.buildElement (F := F) c d) := by
  unfold Flat.buildElement
  exact (look _).bind fun _ => build _ _

theorem delayed {factor block : M (State F) Unit} (h1 : Leaves factor) (h2 : Leaves block) : Leaves (Flat.delayed factor block) := by
  unfold Flat.delayed
  refine h1.bind fun _ => (look _).bind fun same => ?_
  split
  · exact fun _ => ⟨rfl, rfl⟩
  · exact (look _).bind fun _ => (look _).bind fun _ => Leaves.bind (fun _ => ⟨rfl, rfl⟩) fun _ => h2.repeatM _

theorem marker (d : Desc) : Leaves (Flat.marker (F := F) c d) := by
  unfold Flat.marker
  refine Leaves.bind (fun f => ?_) fun t => (look _).bind fun td => (look _).bind fun info => (build _ _).bind fun _ => pure _
  cases f.targets <;> exact ⟨rfl, rfl⟩

mutual
theorem visit : ∀ t : Ast, (∀ n ∈ ParserSpec.nodes t, ofBitmaps n = false) → Leaves (Flat.visit (F := F) c t)
  | .base _ ms, h => by
    unfold Flat.visit
    exact visitL ms fun n hn => h n (by simp [ParserSpec.nodes, hn])
  | .element d np, h => by
    unfold Flat.visit
    split
    · exact pure ()
    · exact (show Leaves (elementAssocs c d) from fun f => buildAssocs d _ f).bind fun _ => (buildElement d).bind fun _ => attachAll _ _
  | .e031021 d, h => by
    unfold Flat.visit
    exact (buildElement d).bind fun _ => modify _ fun _ => ⟨rfl, rfl⟩
  | .fixedRepl d ms, h => by
    unfold Flat.visit
    exact (visitL ms fun n hn => h n (by simp [ParserSpec.nodes, hn])).repeatM _
  | .delayedRepl _ [], h => by
    unfold Flat.visit
    exact fun _ => ⟨rfl, rfl⟩
  | .delayedRepl _ (m :: ms), h => by
    unfold Flat.visit
    exact (visit m fun n hn => h n (by simp [ParserSpec.nodes, ParserSpec.nodesL, hn])).delayed
      (visitL ms fun n hn => h n (by simp [ParserSpec.nodes, ParserSpec.nodesL, hn]))
  | .sequence _ ms, h => by
    unfold Flat.visit
    exact visitL ms fun n hn => h n (by simp [ParserSpec.nodes, hn])
  | .dataNotPresent _ ms, h => by
    unfold Flat.visit
    exact visitL ms fun n hn => h n (by simp [ParserSpec.nodes, hn])
  | .nbitsOffset _, h => by
    unfold Flat.visit
    exact modify _ fun _ => ⟨rfl, rfl⟩
  | .scaleOffset _, h => by
    unfold Flat.visit
    exact modify _ fun _ => ⟨rfl, rfl⟩
  | .modifyPacking _, h => by
    unfold Flat.visit
    exact modify _ fun _ => ⟨rfl, rfl⟩
  | .setStringLength _, h => by
    unfold Flat.visit
    exact modify _ fun _ => ⟨rfl, rfl⟩
  | .newRefval d ms, h => by
    unfold Flat.visit
    split
    · cases ms with
      | nil => exact pure ()
      | cons m ms =>
        unfold refvals
        refine (build _ _).bind fun _ => ?_
        intro f
        cases m.descriptor <;> exact ⟨rfl, rfl⟩
    · exact pure ()
  | .assocField d ms, h => by
    unfold Flat.visit
    have ih := visitL ms fun n hn => h n (by simp [ParserSpec.nodes, hn])
    dsimp only
    split
    · refine Leaves.bind (fun f => ?_) fun _ => ih
      unfold popAssoc
      split <;> exact ⟨rfl, rfl⟩
    · exact Leaves.bind (fun _ => ⟨rfl, rfl⟩) fun _ => ih
  | .insertString d, h => by
    unfold Flat.visit
    exact (build _ _).bind fun _ => pure _
  | .skipLocal d [], h => by
    unfold Flat.visit
    exact fun _ => ⟨rfl, rfl⟩
  | .skipLocal d (m :: ms), h => by
    unfold Flat.visit
    exact (build _ _).bind fun _ => pure _
  | .marker d, h => by
    unfold Flat.visit
    exact marker d
  | .assessment _ _ _ _, h => by
    have := h _ (by simp [ParserSpec.nodes]; exact .inl rfl)
    cases this
  | .cancelBackRef _, h => by
    have := h _ (by simp [ParserSpec.nodes]; rfl)
    cases this
  | .cancelBitmap _, h => by
    have := h _ (by simp [ParserSpec.nodes]; rfl)
    cases this
  | .bitmap _ _, h => by
    have := h _ (by simp [ParserSpec.nodes]; exact .inl rfl)
    cases this
theorem visitL : ∀ ts : List Ast, (∀ n ∈ ParserSpec.nodesL ts, ofBitmaps n = false) → Leaves (Flat.visitL (F := F) c ts)
  | [], h => by
    unfold Flat.visitL
    exact pure ()
  | t :: ts, h => by
    unfold Flat.visitL
    exact (visit t fun n hn => h n (by simp [ParserSpec.nodesL, hn])).bind fun _ =>
      visitL ts fun n hn => h n (by simp [ParserSpec.nodesL, hn])
end

end Leaves

theorem apart_leaves [GoFloat F] {ms : List Ast} (hm : apart ms = true) : Leaves (F := F) (visitL c ms) :=
  Leaves.visitL ms fun n hn => by simpa using List.all_eq_true.1 hm n hn

/-! ## Who is to blame -/

/-- What an outcome says of the symbols read. -/
def Blame [GoFloat F] (W : Wire F τ) (b : Bool) (x : Ctx) (ts : List Ast) (l : List τ) (Q : Prop) : Outcome Unit → Prop
  | .ok _ => Q
  | .err _ => True
  | .panic w => ∃ bits t why, l = bits ++ t ∧ why.panics w ∧ Stuck (F := F) W b why x ts bits
  | .diverge => False

/-- `m` crashes only where the data cannot be decoded. -/
def Blames [GoFloat F] (c : VisCfg) (At : List τ → Reader F → Prop) (W : Wire F τ) (k : Option Nat) (n n' : Nat) (m : M (State F) Unit)
    (ts : List Ast) : Prop :=
  ∀ (f f' : State F) (o : Outcome Unit) (x : Ctx) (l : List τ), Inv c n f → Follows true f x → Sound c.compressed x → f.subsets = k →
    At l f.r → m f = (o, f') → Blame (F := F) W c.compatible x ts l (Inv c n' f') o

section Blames
variable [GoFloat F] {W : Wire F τ} {k : Option Nat}

theorem Blame.mono {b : Bool} {x y : Ctx} {ts us : List Ast} {l l' : List τ} {Q Q' : Prop} {o : Outcome Unit}
    (h : Blame (F := F) W b x ts l Q o) (hQ : Q → Q')
    (hs : ∀ why bits, Stuck (F := F) W b why x ts bits → ∀ t, l = bits ++ t → ∃ bits' t', l' = bits' ++ t' ∧ Stuck (F := F) W b why y us bits') :
    Blame (F := F) W b y us l' Q' o := by
  cases o with
  | ok a => exact hQ h
  | err e => trivial
  | panic w =>
    obtain ⟨bits, t, why, h1, h2, h3⟩ := h
    obtain ⟨bits', t', h4, h5⟩ := hs why bits h3 t h1
    exact ⟨bits', t', why, h4, h2, h5⟩
  | diverge => exact h

theorem Blame.of_safe {P : State F → Prop} {m : M (State F) Unit} {Q : Unit → State F → Prop} (h : Safe P m Q fun _ => False)
    {f f' : State F} {o : Outcome Unit} (hf : P f) (e : m f = (o, f')) {b : Bool} {x : Ctx} {ts : List Ast} {l : List τ} :
    Blame (F := F) W b x ts l (Q () f') o := by
  have h := h f hf
  rw [e] at h
  cases o <;> first | exact h | exact h.elim

theorem Blames.of_safe {n n' : Nat} {m : M (State F) Unit} {ts : List Ast} (h : Safe (Inv c n) m (fun _ => Inv c n') fun _ => False) :
    Blames c At W k n n' m ts := fun _ _ _ _ _ hi _ _ _ _ e => Blame.of_safe h hi e

theorem Blames.wrap {n n' : Nat} {m : M (State F) Unit} {ts us : List Ast} (h : Blames c At W k n n' m ts)
    (hw : ∀ {why : Why} {x : Ctx} {b : List τ}, Stuck (F := F) W c.compatible why x ts b → Stuck (F := F) W c.compatible why x us b) :
    Blames c At W k n n' m us := fun f f' o x l hi hf hx hk hr e =>
  (h f f' o x l hi hf hx hk hr e).mono id fun _ b hs t ht => ⟨b, t, ht, hw hs⟩

theorem Blames.le {n n1 n2 : Nat} {m : M (State F) Unit} {ts : List Ast} (h : Blames c At W k n n1 m ts) (hn : n2 ≤ n1) :
    Blames c At W k n n2 m ts := fun f f' o x l hi hf hx hk hr e =>
  (h f f' o x l hi hf hx hk hr e).mono (·.le hn) fun _ b hs t ht => ⟨b, t, ht, hs⟩

theorem Blames.nil {n : Nat} : Blames (F := F) c At W k n n (Pure.pure ()) [] := by
  intro f f' o x l hi hf hx hk hr e
  cases e
  exact hi

theorem Blames.seq {n n1 n2 : Nat} {m m' : M (State F) Unit} {ts us : List Ast} (h1 : Blames c At W k n n1 m ts)
    (o1 : Only true c At W k m ts) (ht : tame c.compressed ts = true) (h2 : Blames c At W k n1 n2 m' us) :
    Blames c At W k n n2 (m >>= fun _ => m') (ts ++ us) := by
  intro f f' o x l hi hf hx hk hr e
  rw [M.bind_apply] at e
  rcases e1 : m f with ⟨o', g⟩
  rw [e1] at e
  have hb := h1 f g o' x l hi hf hx hk hr e1
  cases o' with
  | ok a =>
    obtain ⟨b, t, is, y, rfl, q1, q2, -, q4, q5⟩ := o1 f g x l hf hk hr e1
    refine (h2 g f' o y t hb q4 (q1.sound ht hx) q5 q2 e).mono id fun why b' hs t' ht' => ⟨b ++ b', t', ?_, .after q1 hs⟩
    rw [ht', List.append_assoc]
  | err _ => cases e; trivial
  | panic w =>
    cases e
    obtain ⟨b, t, why, ht, hw, hs⟩ := hb
    exact ⟨b, t, why, ht, hw, hs.extend us⟩
  | diverge => exact hb.elim

theorem Blames.repeatM {n : Nat} {m : M (State F) Unit} {ts : List Ast} (h : Blames c At W k n n m ts)
    (o1 : Only true c At W k m ts) (ht : tame c.compressed ts = true) :
    ∀ j, Blames c At W k n n (Vis.repeatM m j) (List.replicate j ts).flatten
  | 0 => Blames.nil
  | j + 1 => by
    rw [List.replicate_succ, List.flatten_cons]
    exact h.seq o1 ht (Blames.repeatM h o1 ht j)

theorem delayed_blames {n : Nat} {u : Unit'} (hu : c.compressed = true → u ≠ .string)
    {factor block : M (State F) Unit} {m : Ast} {ms : List Ast} (hN : Plainly W k)
    (hf : Safe (Inv c n) factor (fun _ f => Inv c n f ∧ LastOk c u f) fun _ => False)
    (h1 : Only true c At W k factor [m]) (hm : yields m = true) (htm : tame c.compressed [m] = true)
    (h2 : Only true c At W k block ms) (hb : Blames c At W k n n block ms) (htb : tame c.compressed ms = true) (d : Desc) :
    Blames c At W k n n (delayed factor block) [.delayedRepl d (m :: ms)] := by
  intro f f' o x l hi ha hx hk hr e
  unfold delayed at e
  have hs := hf f hi
  rw [M.bind_apply] at e
  rcases e1 : factor f with ⟨o', g⟩
  rw [e1] at e hs
  cases o' with
  | err _ => cases e; trivial
  | panic w => exact hs.elim
  | diverge => exact hs.elim
  | ok a =>
    obtain ⟨ig, lg⟩ := hs
    obtain ⟨b1, t1, fs, z, rfl, q1, r1, c1, a1, k1⟩ := h1 f g x l ha hk hr e1
    have hlen : g.len = .ok (g.cols.length : Int) := by
      unfold State.len
      rw [if_neg a1.subsets]
    have hcalm : ¬ g.lastEqual.crashed := by
      unfold State.lastEqual
      have hs := ig.subsets
      cases hcomp : c.compressed with
      | false =>
        rw [hcomp] at hs
        rw [hs]
        exact fun h => h
      | true =>
        rw [hcomp] at hs
        rw [hs]
        obtain ⟨col, h1, h2⟩ := lg.index
        simp only [if_true, h1]
        show ¬ (match col.vals with | [] => _ | v :: vs => _ : Outcome Bool).crashed
        cases hv : col.vals with
        | nil => exact fun h => h
        | cons v vs => exact allEqual_calm (h2 hcomp (hu hcomp) v (by rw [hv]; exact List.mem_cons_self)) vs
    obtain ⟨col, hcol, -⟩ := lg.index
    have hval : g.value ((g.cols.length : Int) - 1) = .ok (col.vals.getD 0 .nil) := by
      unfold State.value
      rw [hcol]
      rfl
    cases hsame : g.lastEqual with
    | panic w => rw [hsame] at hcalm; exact absurd trivial hcalm
    | diverge => rw [hsame] at hcalm; exact absurd trivial hcalm
    | err ee =>
      have e2 : (fun f : State F => (f.lastEqual, f) : M (State F) Bool) g = (.err ee, g) := by
        show (g.lastEqual, g) = _
        rw [hsame]
      have e := (M.bind_err e2).symm.trans e
      cases e
      trivial
    | ok same =>
      have e := (query_bind (q := fun f : State F => f.lastEqual) hsame _).symm.trans e
      cases same with
      | false =>
        cases e
        trivial
      | true =>
        have e := (query_bind (q := fun f : State F => f.len) hlen _).symm.trans e
        have e := (query_bind (q := fun f : State F => f.value ((g.cols.length : Int) - 1)) hval _).symm.trans e
        cases hj : Cell.uintValue (F := F) ⟨0, col.vals.getD 0 .nil⟩ with
        | ok j =>
          have e3 : (M.lift (Cell.uintValue (F := F) ⟨0, col.vals.getD 0 .nil⟩) : M (State F) Nat) g = (.ok j, g) := by
            rw [M.lift_apply, hj]
          have e := (M.bind_ok e3).symm.trans e
          obtain ⟨it, vs, n1, n2, n3, n4⟩ := delayed_facts hN hm q1 c1 a1.subsets k1 hsame hlen hval hj
          refine (hb.repeatM h2 htb j g f' o z t1 ig a1 (q1.sound htm hx) k1 r1 e).mono id
            fun why b' hs t' ht' => ⟨b1 ++ b', t', by rw [ht', List.append_assoc], .delayed q1 n1 n2 n3 n4 ?_⟩
          rw [List.append_nil]
          exact hs
        | err ee =>
          have e3 : (M.lift (Cell.uintValue (F := F) ⟨0, col.vals.getD 0 .nil⟩) : M (State F) Nat) g = (.err ee, g) := by
            rw [M.lift_apply, hj]
          have e := (M.bind_err e3).symm.trans e
          cases e
          trivial
        | panic w =>
          exfalso
          unfold Cell.uintValue at hj
          split at hj <;> cases hj
        | diverge =>
          exfalso
          unfold Cell.uintValue at hj
          split at hj <;> cases hj

theorem marker_blames (hc : BinCfg c) {n : Nat} (d : Desc) : Blames (F := F) c At W k n n (visit c (.marker d)) [.marker d] := by
  intro f f' o x l hi ha hx hk hr e
  simp only [visit] at e
  cases hts : x.targets with
  | nil =>
    have h := (marker_panics (c := c) ha.toAgrees d).1 hts
    rw [e] at h
    simp only at h
    subst h
    exact ⟨[], l, .noElement, rfl, rfl, .marker hts⟩
  | cons t rest =>
    have hlt := hx.targets t (by rw [hts]; exact List.mem_cons_self)
    obtain ⟨nd, hnd⟩ : ∃ nd, x.seen[t]? = some nd := ⟨_, List.getElem?_eq_getElem hlt⟩
    by_cases hb : ∃ td en, nd.d = some td ∧ td.entry = .b en
    · obtain ⟨td, en, h1, h2⟩ := hb
      have hdesc : f.cols[t]?.map Column.desc = some nd := by
        rw [← hnd, ← ha.seen, List.getElem?_map]
      obtain ⟨col, hc1, hc2⟩ := Option.map_eq_some_iff.1 hdesc
      have hleg := hx.seen nd (List.mem_of_getElem? hnd) td h1
      unfold legible at hleg
      simp only [h2] at hleg
      have hfine : td.id.F = 0 := by
        have := ha.fine _ (List.mem_of_getElem? hnd) td h1
        simpa [EncodeSpec.fine, h2] using this
      let f1 : State F := { f with targets := rest }
      have i1 : Inv c n f1 := { hi with }
      obtain ⟨info, -, p1, -, -, p2⟩ := packing_fine (F := F) hleg i1
      unfold marker at e
      have e1 : (fun f : State F => match f.targets with
          | [] => (.panic "index out of range", f)
          | t :: ts => (.ok t, { f with targets := ts }) : M (State F) Nat) f = (.ok t, f1) := by
        simp only [ha.targets, hts]
        rfl
      have e2 : (match f1.cols[t]? with
          | some col => (.ok col.desc.d : Outcome (Option Desc))
          | none => .panic "does not occur: targets are valued nodes") = .ok (some td) := by
        show (match f.cols[t]? with
          | some col => (.ok col.desc.d : Outcome (Option Desc))
          | none => .panic "does not occur: targets are valued nodes") = _
        rw [hc1]
        simp only [hc2, h1]
      have e := (M.bind_ok e1).symm.trans e
      have e := (query_bind (s := f1) (a := some td) (q := fun f : State F => match f.cols[t]? with
        | some col => (.ok col.desc.d : Outcome (Option Desc))
        | none => .panic "does not occur: targets are valued nodes") e2 _).symm.trans e
      have e := (query_bind (s := f1) (q := fun f : State F => f.packing (some td)) p1 _).symm.trans e
      have hop : ¬ (some td).map (fun x : Desc => x.id.Operator) = some 225 := by
        simp only [Option.map_some, Option.some.injEq]
        exact not_225 hfine
      simp only [if_neg hop] at e
      have hs : Safe (Inv (F := F) c n) (do let _ ← build c ⟨some d, false⟩ info; Pure.pure ()) (fun _ => Inv c n) fun _ => False :=
        (build_safe hc p2).bind fun _ => Safe.pure fun _ h => h.1
      exact Blame.of_safe hs i1 e
    · obtain ⟨w, h1, h2⟩ := (marker_panics (c := c) ha.toAgrees d).2 t rest nd hts hnd fun td en h1 h2 => hb ⟨td, en, h1, h2⟩
      rw [e] at h1
      simp only at h1
      subst h1
      exact ⟨[], l, .noEntry, rfl, h2, .stray hts hnd fun td en h1 h2 => hb ⟨td, en, h1, h2⟩⟩

/-! ### Assessments -/

theorem newAssessment_begin {f : State F} {x : Ctx} (ha : Follows true f x) :
    ∃ b, newAssessment f = (.ok (), { f with backref := b }) ∧ Follows true { f with backref := b } x.begin := by
  obtain ⟨b, h1, h2⟩ := newAssessment_agrees ha.toAgrees
  refine ⟨b, h1, ?_⟩
  have e : x.begin.seen = x.seen := by unfold Ctx.begin; split <;> rfl
  exact { h2 with
    fine := (by rw [e]; exact ha.fine), noCurrent := (by rw [x.begin_current]; exact ha.noCurrent),
    noReusable := (by rw [x.begin_reusable]; exact ha.noReusable), someCurrent := (by rw [x.begin_current]; exact ha.someCurrent),
    someReusable := (by rw [x.begin_reusable]; exact ha.someReusable) }

theorem zero_total (hc : BinCfg c) (hZ : Zeroes c At) {n : Nat} (d : Desc) {f : State F} {l : List τ} (hi : Inv c n f) (hr : At l f.r) :
    ∃ f', buildZero c d f = (.ok (), f') ∧ Inv c n f' := by
  unfold buildZero
  by_cases hcomp : c.compatible = true
  · rw [if_pos hcomp]
    unfold M.ignoreErr
    rw [M.bind_apply]
    have hs := (build_safe (E := fun _ => False) hc (n := n) (d := ⟨some d, false⟩) (assoc_fine (F := F) (c := c) (k := 0))) f hi
    rcases hb : build c ⟨some d, false⟩ (Vis.plainInfo .nonnegCode 0) f with ⟨o, g⟩
    rw [hb] at hs
    cases o with
    | ok i => exact ⟨g, rfl, hs.1⟩
    | err e =>
      exfalso
      unfold build at hb
      rcases hu : c.unpacker.unpack (Vis.plainInfo .nonnegCode 0) f.r with ⟨o, r⟩
      have hz : M.zoom State.r (fun r f => { f with r := r }) (c.unpacker.unpack (Vis.plainInfo .nonnegCode 0)) f =
          (o, { f with r := r }) := by
        unfold M.zoom
        rw [hu]
      cases o with
      | ok v =>
        have hb := (M.bind_ok hz).symm.trans hb
        simp only at hb
        split at hb <;> cases hb
      | err e' => exact hZ l f.r hr e' r hu
      | panic w =>
        have hb := (M.bind_panic hz).symm.trans hb
        cases hb
      | diverge =>
        have hb := (M.bind_diverge hz).symm.trans hb
        cases hb
    | panic w => exact hs.elim
    | diverge => exact hs.elim
  · rw [if_neg hcomp]
    exact ⟨f, rfl, hi⟩

/-- Reading a bitmap does not crash. -/
theorem bitmap_safe (hc : BinCfg c) (hZ : Zeroes c At) {n n' : Nat} {d : Desc} {bs : List Ast} (hd : definesBitmap (.bitmap (some d) bs) = true)
    (hh : (if d.id = 237000 then some n else harmlessL c.compressed bs n) = some n') {f : State F} {l : List τ} (h0 : f.subsets ≠ some 0)
    (hi : Inv c n f) (hr : At l f.r) {o : Outcome Unit} {f' : State F} (e : visit c (.bitmap (some d) bs) f = (o, f')) :
    match o with
    | .ok _ => Inv c n' f'
    | .err _ => True
    | _ => False := by
  simp only [visit] at e
  unfold bitmapDef at e
  simp only at e
  obtain ⟨f0, e0, i0⟩ := zero_total hc hZ d hi hr
  have hsub : f0.subsets ≠ some 0 := by
    rw [i0.subsets, ← hi.subsets]
    exact h0
  have e := (M.bind_ok e0).symm.trans e
  by_cases hid : d.id = 237000
  · rw [if_pos hid] at hh e
    cases hh
    cases e
    exact { i0 with }
  · rw [if_neg hid] at hh e
    simp only [definesBitmap, Bool.and_eq_true, Bool.or_eq_true, beq_iff_eq, hid, false_or] at hd
    have hap := hd.2.1.1
    have hlen : f0.len = .ok (f0.cols.length : Int) := by
      unfold State.len
      rw [if_neg hsub]
    let f1 : State F := { f0 with
      bitmaps := f0.bitmaps ++ [{ index0 := f0.cols.length }]
      current := some f0.bitmaps.length
      reusable := some f0.bitmaps.length }
    have e1 : newBitmap f0 = (.ok (), f1) := (query_bind (q := fun f : State F => f.len) hlen _).trans rfl
    have e := (M.bind_ok e1).symm.trans e
    have i1 : Inv c n f1 := { i0 with }
    have hs := visitL_safe (F := F) (E := fun _ => False) hc bs n n' hh f1 i1
    obtain ⟨hl1, hl2⟩ := apart_leaves (F := F) (c := c) hap f1
    unfold M.deferDo at e
    rcases e2 : visitL c bs f1 with ⟨o2, f2⟩
    rw [e2] at hs hl1 hl2 e
    simp only at hl1 hl2
    have hend : endBitmap f2 = (.ok (), { f2 with bitmaps := f2.bitmaps.modify f0.bitmaps.length fun x => { x with index1 := f2.cols.length } }) := by
      have hlen2 : f2.len = .ok (f2.cols.length : Int) := by
        unfold State.len
        rw [hl2, if_neg hsub]
      unfold endBitmap
      rw [hlen2, hl1]
    cases o2 with
    | ok a =>
      simp only [hend] at e
      cases e
      exact { hs with }
    | err er =>
      simp only [hend] at e
      cases e
      trivial
    | panic w => exact hs.elim
    | diverge => exact hs.elim

theorem uintValue_calm (v : Val F) : ¬ (Cell.uintValue (F := F) ⟨0, v⟩).crashed := by
  unfold Cell.uintValue
  split <;> exact fun h => h

theorem bitsOf_calm {f : State F} : ∀ (k : Nat) (i : Int), 0 ≤ i → i + k ≤ f.cols.length → ¬ (bitsOf f k i).crashed
  | 0, _, _, _ => fun h => h
  | k + 1, i, h0, h1 => by
    unfold bitsOf
    have hlt : i.toNat < f.cols.length := by omega
    have hv : f.value i = .ok ((f.cols[i.toNat]).vals.getD 0 .nil) := by
      unfold State.value
      have := index_some (List.getElem?_eq_getElem hlt)
      rw [show ((i.toNat : Nat) : Int) = i by omega] at this
      rw [this]
      rfl
    have ih := bitsOf_calm (f := f) k (i + 1) (by omega) (by omega)
    have hc := uintValue_calm ((f.cols[i.toNat]).vals.getD 0 .nil)
    rw [hv, Outcome.bind_ok]
    cases hn : Cell.uintValue (F := F) ⟨0, (f.cols[i.toNat]).vals.getD 0 .nil⟩ with
    | ok b =>
      rw [Outcome.bind_ok]
      cases hb : bitsOf f k (i + 1) with
      | ok bs => exact fun h => h
      | err e => exact fun h => h
      | panic w => rw [hb] at ih; exact absurd trivial ih
      | diverge => rw [hb] at ih; exact absurd trivial ih
    | err e => exact fun h => h
    | panic w => rw [hn] at hc; exact absurd trivial hc
    | diverge => rw [hn] at hc; exact absurd trivial hc

/-- The bits can be looked up, unless there is no bitmap. -/
theorem bits_calm {f : State F} {cb : Nat} {bp : Bitmap} (h1 : f.current = some cb) (h2 : f.bitmaps[cb]? = some bp) (h3 : 0 ≤ bp.index0)
    (h4 : bp.index0 ≤ bp.index1) (h5 : bp.index1 ≤ f.cols.length) : ¬ f.bits.crashed := by
  unfold State.bits
  simp only [h1, Option.bind_some, h2]
  rw [if_neg (by omega)]
  exact bitsOf_calm _ _ h3 (by omega)

theorem bits_known {f : State F} {x : Ctx} (ha : Follows true f x) {bits : List Nat} (hc : x.current = some bits) : f.bits = .ok bits := by
  obtain ⟨b, bm, h1, h2, h3⟩ := ha.current bits hc
  unfold State.bits
  rw [h1]
  simp only [Option.bind_some, h2]
  have hl := h3.length
  rw [if_neg (by omega)]
  exact bitsOf_eq (by omega) h3.bit

theorem bits_unset {f : State F} {x : Ctx} (ha : Follows true f x) (hc : x.current = none) : f.bits = .panic "nil pointer dereference" := by
  unfold State.bits
  rw [ha.noCurrent rfl hc]
  rfl

/-- Up to the bits of the bitmap: no crash but for want of a bitmap. -/
theorem chain_blames (hW : Takes c At W k) (hM : Matches (F := F) c k) (hZ : Zeroes c At)
    {d : Desc} {bm : Ast} {as : List Ast} (hd : fine d = true) (hbm : definesBitmap bm = true)
    (hin : ∀ d ms, bm = .bitmap d ms → simpleL false ms = true → Only (F := F) false c At W k (visitL c ms) ms)
    (hap : apart as = true) (ho : ∀ o, Only o c At W k (visitL c as) as) {f1 f2 f3 f4 : State F} {x : Ctx} {l : List τ}
    (ha : Follows true f1 x) (hk : f1.subsets = k) (hr : At l f1.r) (h2 : buildZero c d f1 = (.ok (), f2))
    (h3 : visit c bm f2 = (.ok (), f3)) (h4 : visitL c as f3 = (.ok (), f4)) (hcr : f4.bits.crashed) :
    f4.bits = .panic "nil pointer dereference" ∧ ∃ zb b1 b2 t zs i1 i2 x1 x2, l = zb ++ b1 ++ b2 ++ t ∧ Zero W c.compatible d zb zs ∧
      Coded W c.compatible (x.add zs) [bm] b1 i1 x1 ∧ Coded W c.compatible x1 as b2 i2 x2 ∧ x2.current = none := by
  obtain ⟨cols, r, zb, t, zs, rfl, rfl, q1, q2, q3, q4⟩ := zero_only hW hM hZ h2 hr
  have a0 : Follows true { f1 with r := r, cols := cols } (x.add zs) := ha.add _ _ rfl q3 fun i hi td htd => by
    rw [q4 i hi] at htd
    cases htd
    exact hd
  obtain ⟨b1, t1, i1, rfl, p1, p2, p3, p4, ⟨x0, p5⟩, p6⟩ := bitmap_only hW hM hZ hbm hin a0 hk q2 h3
  rcases p6 with ⟨y, y1, y2⟩ | ⟨cb, bp, n1, n2, n3, n4, n5, -⟩
  · obtain ⟨b2, t2, i2, x2, rfl, m1, m2, m3, m4, m5⟩ := ho true f3 f4 y t1 y2 p3 p1 h4
    cases hcur : x2.current with
    | none => exact ⟨bits_unset m4 hcur, zb, b1, b2, t2, zs, i1, i2, y, x2, by simp, q1, y1, m1, hcur⟩
    | some bits =>
      rw [bits_known m4 hcur] at hcr
      exact hcr.elim
  · obtain ⟨-, -, i2, -, -, -, -, m1, -⟩ := ho false f3 f4 x0 t1 p5 p3 p1 h4
    obtain ⟨g1, g2, -, -⟩ := apart_frame hap h4
    have := items_length m1
    exact absurd hcr (bits_calm (g2.trans n1) (by rw [g1]; exact n2) n3 n4 (by omega))

theorem added_ok' {m : M (State F) Unit} {g g' : State F} (h1 : g.len = .ok (g.cols.length : Int)) (h2 : m g = (.ok (), g'))
    (h3 : g'.len = .ok (g'.cols.length : Int)) : added m g = (.ok (List.range' g.cols.length (g'.cols.length - g.cols.length)), g') := by
  unfold added
  refine (query_bind (q := fun f : State F => f.len) h1 _).trans ?_
  refine (M.bind_ok h2).trans ?_
  refine (query_bind (q := fun f : State F => f.len) h3 _).trans ?_
  rw [M.pure_apply]
  congr 3
  omega

theorem added_err {m : M (State F) Unit} {g g' : State F} {er : Err} (h1 : g.len = .ok (g.cols.length : Int)) (h2 : m g = (.err er, g')) :
    added m g = (.err er, g') := by
  unfold added
  exact (query_bind (q := fun f : State F => f.len) h1 _).trans (M.bind_err h2)

theorem added_panic {m : M (State F) Unit} {g g' : State F} {w : String} (h1 : g.len = .ok (g.cols.length : Int))
    (h2 : m g = (.panic w, g')) : added m g = (.panic w, g') := by
  unfold added
  exact (query_bind (q := fun f : State F => f.len) h1 _).trans (M.bind_panic h2)

theorem select_err {f : State F} {er : Err} (h : f.bits = .err er) : selectTargets f = (.err er, f) := by
  have e : (fun f : State F => (f.bits, f) : M (State F) (List Nat)) f = (.err er, f) := by
    show (f.bits, f) = _
    rw [h]
  exact M.bind_err e

theorem select_bad {f : State F} {bits : List Nat} (h : f.bits = .ok bits)
    (hb : f.backref + 1 < bits.length ∨ (bits = [] ∧ 0 < f.backref + 1)) :
    selectTargets f = (.err (.msg "inconsistent number of bits and target nodes"), f) := by
  unfold selectTargets
  refine (query_bind (q := fun f : State F => f.bits) h _).trans ?_
  refine (query_bind (q := fun f : State F => (.ok (f.backref + 1) : Outcome Int)) rfl _).trans ?_
  rw [if_pos hb]
  rfl

theorem select_good {f : State F} {bits : List Nat} (h : f.bits = .ok bits)
    (hb : ¬ (f.backref + 1 < bits.length ∨ (bits = [] ∧ 0 < f.backref + 1))) :
    selectTargets f = (.ok (zeros bits ((f.backref + 1).toNat - bits.length)),
      { f with targets := zeros bits ((f.backref + 1).toNat - bits.length) }) := by
  unfold selectTargets
  refine (query_bind (q := fun f : State F => f.bits) h _).trans ?_
  refine (query_bind (q := fun f : State F => (.ok (f.backref + 1) : Outcome Int)) rfl _).trans ?_
  rw [if_neg hb]
  rfl

theorem assessment_blames (hc : BinCfg c) (hW : Takes c At W k) (hM : Matches (F := F) c k) (hZ : Zeroes c At)
    {d bd : Desc} {bs as ms : List Ast} (hd : fine d = true) (hbm : definesBitmap (.bitmap (some bd) bs) = true)
    (hin : simpleL false bs = true → Only (F := F) false c At W k (visitL c bs) bs) (has : simpleL false as = true)
    (hap : apart as = true) (ho : ∀ o, Only o c At W k (visitL c as) as) (hm : Only true c At W k (visitL c ms) ms)
    (hb : bd.id = 237000 ∨ (harmlessL c.compressed bs 0).isSome = true) (ha : (harmlessL c.compressed as 0).isSome = true)
    (hg : Blames c At W k 0 0 (visitL c ms) ms) (ht : tame c.compressed [.assessment d (.bitmap (some bd) bs) as ms] = true) :
    Blames c At W k 0 0 (visit c (.assessment d (.bitmap (some bd) bs) as ms)) [.assessment d (.bitmap (some bd) bs) as ms] := by
  obtain ⟨n1, hb⟩ : ∃ n1, (if bd.id = 237000 then some 0 else harmlessL c.compressed bs 0) = some n1 := by
    split
    · exact ⟨_, rfl⟩
    · exact Option.isSome_iff_exists.1 (hb.resolve_left ‹_›)
  obtain ⟨n2, ha⟩ := Option.isSome_iff_exists.1 ha
  intro f f' o x l hi hf hx hk hr e
  have hin' : ∀ d' ms', Ast.bitmap (some bd) bs = .bitmap d' ms' → simpleL false ms' = true →
      Only (F := F) false c At W k (visitL c ms') ms' := by
    intro d' ms' h hs
    cases h
    exact hin hs
  have len_ok : ∀ {g : State F}, g.subsets = k → g.len = .ok (g.cols.length : Int) := by
    intro g hg
    unfold State.len
    rw [hg, ← hk, if_neg hf.subsets]
  rw [show visit c (.assessment d (.bitmap (some bd) bs) as ms) =
    assessment c d (visit c (.bitmap (some bd) bs)) (visitL c as) (visitL c ms) by simp only [visit]] at e
  unfold assessment at e
  obtain ⟨br, e1, a1⟩ := newAssessment_begin hf
  have i1 : Inv c 0 { f with backref := br } := { hi with }
  have e := (M.bind_ok e1).symm.trans e
  obtain ⟨f2, e2, i2⟩ := zero_total (At := At) hc hZ d i1 hr
  have e := (M.bind_ok e2).symm.trans e
  have s2 : f2.subsets = k := i2.subsets.trans (hi.subsets.symm.trans hk)
  -- the bitmap
  rcases e3 : visit c (.bitmap (some bd) bs) f2 with ⟨o3, f3⟩
  have r2 : ∃ l2, At l2 f2.r := by
    obtain ⟨cols, r, zb, t, zs, rfl, -, -, q2, -⟩ := zero_only hW hM hZ e2 hr
    exact ⟨t, q2⟩
  obtain ⟨l2, r2⟩ := r2
  have i3 := bitmap_safe hc hZ hbm hb (by rw [s2, ← hk]; exact hf.subsets) i2 r2 e3
  cases o3 with
  | err er =>
    have e := (M.bind_err e3).symm.trans e
    cases e
    trivial
  | panic w => exact i3.elim
  | diverge => exact i3.elim
  | ok u3 =>
  have e := (M.bind_ok e3).symm.trans e
  simp only at i3
  have s3 : f3.subsets = k := i3.subsets.trans (hi.subsets.symm.trans hk)
  -- what goes with the values
  have i4 := visitL_safe (F := F) (E := fun _ => False) hc as 0 n2 ha f3 (i3.le (Nat.zero_le _))
  rcases e4 : visitL c as f3 with ⟨o4, f4⟩
  rw [e4] at i4
  cases o4 with
  | err er =>
    have e := (M.bind_err (added_err (len_ok s3) e4)).symm.trans e
    cases e
    trivial
  | panic w => exact i4.elim
  | diverge => exact i4.elim
  | ok u4 =>
  simp only at i4
  have s4 : f4.subsets = k := i4.subsets.trans (hi.subsets.symm.trans hk)
  have e := (M.bind_ok (added_ok' (len_ok s3) e4 (len_ok s4))).symm.trans e
  -- the elements
  by_cases hcr : f4.bits.crashed
  · obtain ⟨hp, zb, b1, b2, t, zs, j1, j2, x1, x2, rfl, q1, q2, q3, q4⟩ :=
      chain_blames hW hM hZ hd hbm hin' hap ho a1 hk hr e2 e3 e4 hcr
    have e := (M.bind_panic (select_panic hp)).symm.trans e
    cases e
    exact ⟨zb ++ b1 ++ b2, t, .noBitmap, rfl, rfl, .unset q1 q2 q3 q4⟩
  cases hbits : f4.bits with
  | panic w => rw [hbits] at hcr; exact absurd trivial hcr
  | diverge => rw [hbits] at hcr; exact absurd trivial hcr
  | err er =>
    have e := (M.bind_err (select_err hbits)).symm.trans e
    cases e
    trivial
  | ok bits =>
  by_cases hbad : f4.backref + 1 < bits.length ∨ (bits = [] ∧ 0 < f4.backref + 1)
  · have e := (M.bind_err (select_bad hbits hbad)).symm.trans e
    cases e
    trivial
  obtain ⟨zb, b1, b2, t, zs, j1, j2, x1, x2, rfl, q1, q2, q3, q4, q5, q6, q7, q8⟩ :=
    chain_only hW hM hZ hd hbm hin' has ho a1 hk hr e2 e3 e4 hbits
  have hcur := select_inv q6 hbits
  have hne := q6.someCurrent _ hcur
  have hlen : 0 < bits.length := List.length_pos_iff.2 hne
  have hback := q6.backref
  cases hx2 : x2.back with
  | none =>
    exfalso
    rw [hx2] at hback
    simp only at hback
    exact hbad (.inl (by omega))
  | some j =>
  rw [hx2] at hback
  simp only at hback
  have hj : (f4.backref + 1).toNat = j := by omega
  have hjl : bits.length ≤ j := by
    have := fun h => hbad (.inl h)
    omega
  by_cases hN : 0 < x.back.getD x.seen.length
  · have htm := tame_cons ht
    have h5 : tame c.compressed [.bitmap (some bd) bs] = true ∧ tame c.compressed as = true := by
      unfold tame at *
      simp only [ParserSpec.nodesL, ParserSpec.nodes, List.all_append, List.cons_append, List.all_cons, Bool.and_eq_true, List.append_nil] at ht ⊢
      exact ⟨⟨ht.2.1, ht.2.2.1.1⟩, ht.2.2.1.2⟩
    have sx1 := q2.sound h5.1 (hx.begin.add (q1.legible (by simpa [Ast.descriptor] using htm.1)))
    have sx2 := q3.sound h5.2 sx1
    have hbegin : x.begin = { x with back := some (x.back.getD x.seen.length) } := by
      unfold Ctx.begin
      rw [if_pos hN]
    rw [hbegin] at q2
    let g4 : State F := { f4 with targets := selected bits j }
    have a4 : Follows true g4 { x2 with targets := selected bits j } := { q6 with targets := rfl }
    have sx4 : Sound c.compressed { x2 with targets := selected bits j } :=
      { sx2 with targets := fun t ht => Nat.lt_of_lt_of_le (selected_lt hjl t ht) (sx2.back j hx2) }
    have i4' : Inv c 0 g4 := { i4.le (Nat.zero_le _) with }
    have e6 : selectTargets f4 = (.ok (selected bits j), g4) := by
      rw [select_good hbits hbad, hj, zeros_selected]
    have e := (M.bind_ok e6).symm.trans e
    rcases e7 : visitL c ms g4 with ⟨o5, f5⟩
    have b5 := hg g4 f5 o5 _ t i4' a4 sx4 s4 q4 e7
    cases o5 with
    | err er =>
      have e := (M.bind_err (added_err (len_ok (g := g4) s4) e7)).symm.trans e
      cases e
      trivial
    | diverge => exact b5.elim
    | panic w =>
      have e := (M.bind_panic (added_panic (len_ok (g := g4) s4) e7)).symm.trans e
      cases e
      obtain ⟨b3, t3, why, rfl, hw, hs⟩ := b5
      exact ⟨zb ++ b1 ++ b2 ++ b3, t3, why, by simp, hw, .within hN q1 q2 q3 hcur hx2 hne hjl hs⟩
    | ok u5 =>
      have i5 : Inv c 0 f5 := b5
      obtain ⟨b3, t3, j3, x3, rfl, p1, p2, p3, p4, p5⟩ := hm g4 f5 _ t a4 s4 q4 e7
      have e := (M.bind_ok (added_ok' (len_ok (g := g4) s4) e7 (len_ok p5))).symm.trans e
      have hl5 := items_length p3
      by_cases hle : j3.length ≤ (selected bits j).length
      · obtain ⟨cols, e8, -⟩ := attachSources_eq (List.range' f3.cols.length (f4.cols.length - f3.cols.length))
          (List.range' g4.cols.length (f5.cols.length - g4.cols.length)) (selected bits j) f5 (by
            rw [List.length_range']
            omega)
        rw [e8] at e
        cases e
        exact { i5 with }
      · have e8 := attachSources_over (List.range' f3.cols.length (f4.cols.length - f3.cols.length))
          (List.range' g4.cols.length (f5.cols.length - g4.cols.length)) (selected bits j) f5 (by
            rw [List.length_range']
            omega)
        rw [e] at e8
        simp only at e8
        subst e8
        refine ⟨zb ++ b1 ++ b2 ++ b3, t3, .noElement, by simp, rfl, .values (chosen := (selected bits j).length) (given := j3.length)
          ⟨x1, x2, x3, zb, b1, b2, b3, zs, j1, j2, j3, j, bits, hN, q1, q2, q3, hcur, hx2, hne, hjl, p1, rfl, rfl, rfl⟩ (by omega)⟩
  · exfalso
    have hx0 : x.begin = x := by
      unfold Ctx.begin
      rw [if_neg hN]
    rw [hx0] at a1
    have hxb : x.back = none := by
      cases hxb : x.back with
      | none => rfl
      | some n =>
        have := hf.pos n hxb
        rw [hxb] at hN
        exact absurd this hN
    have hb := a1.backref
    rw [hxb] at hb
    simp only at hb q8
    rcases q8 with q8 | q8 <;> omega

theorem Blames.of_harmless (hc : BinCfg c) {t : Ast} (h : (harmless c.compressed t 0).isSome = true) :
    Blames (F := F) c At W k 0 0 (visit c t) [t] := by
  obtain ⟨n, hn⟩ := Option.isSome_iff_exists.1 h
  exact (Blames.of_safe (visit_safe hc _ 0 n hn)).le (Nat.zero_le _)

theorem refval_blames (hc : BinCfg c) (hW : Takes c At W k) (hM : Matches (F := F) c k) {d : Desc} {ms : List Ast}
    (hg : d.id.Y = 255 ∨ c.compressed = false) : Blames c At W k 0 0 (visit c (.newRefval d ms)) [.newRefval d ms] := by
  intro f f' o x l hi hf hx hk hr e
  simp only [visit] at e
  by_cases hy : d.id.Y = 255
  · rw [if_neg (fun h => h hy)] at e
    cases e
    exact hi
  · rw [if_pos hy] at e
    have hcomp := hg.resolve_left hy
    cases ms with
    | nil =>
      cases e
      exact hi
    | cons m ms =>
      unfold refvals at e
      rcases e1 : build c ⟨m.descriptor, false⟩ (Vis.plainInfo .code d.id.Y) f with ⟨o1, f1⟩
      have hs := build_safe (E := fun _ => False) hc (n := 0) (d := ⟨m.descriptor, false⟩)
        (show Gobufr.Flat.Fine (F := F) c (Vis.plainInfo .code d.id.Y) from ⟨nofun, fun h => by simp [hcomp] at h, fun h => by simp [hcomp] at h⟩) f hi
      rw [e1] at hs
      cases o1 with
      | err er =>
        have e := (M.bind_err e1).symm.trans e
        cases e
        trivial
      | panic w => exact hs.elim
      | diverge => exact hs.elim
      | ok i =>
        have e := (M.bind_ok e1).symm.trans e
        obtain ⟨-, col, r, b, t, -, -, q1, q2, -⟩ := build_only hW hM e1 hr
        cases hm : m.descriptor with
        | none =>
          rw [hm] at e
          cases e
          exact ⟨b, t, .newReference, q1, .inr rfl, .reference hy q2⟩
        | some md =>
          rw [hm] at e
          cases e
          exact ⟨b, t, .newReference, q1, .inl rfl, .reference hy q2⟩

mutual
theorem guarded_blames (hc : BinCfg c) (hW : Takes c At W k) (hM : Matches (F := F) c k) (hN : Plainly W k) (hZ : Zeroes c At) :
    ∀ (m : Ast), simple true m = true → tame c.compressed [m] = true → guarded c.compressed m = true →
      Blames c At W k 0 0 (visit c m) [m]
  | .sequence d ms, hs, ht, hg => by
    simp only [simple] at hs
    simp only [guarded] at hg
    simp only [visit]
    refine (guardedL_blames hc hW hM hN hZ ms hs (tame_inner ht rfl).1 hg).wrap fun h => .sequence ?_
    rw [List.append_nil]
    exact h
  | .dataNotPresent d ms, hs, ht, hg => by
    simp only [simple] at hs
    simp only [guarded] at hg
    simp only [visit]
    refine (guardedL_blames hc hW hM hN hZ ms hs (tame_inner ht rfl).1 hg).wrap fun h => .notPresent ?_
    rw [List.append_nil]
    exact h
  | .fixedRepl d ms, hs, ht, hg => by
    simp only [simple] at hs
    simp only [guarded] at hg
    simp only [visit]
    have h1 := guardedL_blames hc hW hM hN hZ ms hs (tame_inner ht rfl).1 hg
    refine (h1.repeatM (simpleL_only hW hM hN hZ true true ms (fun h => h) hs) (tame_inner ht rfl).1 _).wrap fun h => .fixed ?_
    rw [List.append_nil]
    exact h
  | .delayedRepl d [], hs, ht, hg => by simp [guarded, harmless] at hg
  | .delayedRepl d (m :: ms), hs, ht, hg => by
    simp only [simple, simpleL, Bool.and_eq_true] at hs
    simp only [guarded, Bool.and_eq_true, Option.any_eq_true] at hg
    simp only [visit]
    obtain ⟨⟨fd, hfd, hcd1⟩, hg⟩ := hg
    have htt := (tame_inner ht rfl).1
    rw [show m :: ms = [m] ++ ms from rfl, tame_append, Bool.and_eq_true] at htt
    have h1 := guardedL_blames hc hW hM hN hZ ms hs.1.2 htt.2 hg
    unfold countable at hcd1
    split at hcd1
    · rename_i e he
      simp only [Bool.and_eq_true, Bool.or_eq_true, Bool.not_eq_true', bne_iff_ne, ne_eq] at hcd1
      exact delayed_blames (u := e.unit) (fun h => hcd1.2.resolve_left (by simp [h])) hN
        ((factor_safe hc hcd1.1 hfd).post fun _ _ h => ⟨h.1, h.2 e he⟩)
        (simple_only hW hM hN hZ true true m (fun h => h) hs.1.1) hs.2 htt.1
        (simpleL_only hW hM hN hZ true true ms (fun h => h) hs.1.2) h1 htt.2 d
    · exact absurd hcd1 nofun
  | .assocField d ms, hs, ht, hg => by
    simp only [simple] at hs
    simp only [guarded] at hg
    intro f f' o x l hi hf hx hk hr e
    simp only [visit] at e
    by_cases hy : d.id.Y = 0
    · rw [if_pos hy] at e
      by_cases hne : f.assoc = []
      · have h1 : popAssoc f = (.panic "slice bounds out of range", f) := by
          unfold popAssoc
          rw [hne]
          rfl
        have e := (M.bind_panic h1).symm.trans e
        cases e
        refine ⟨[], l, .noField, rfl, rfl, .unopened hy ?_⟩
        have := hf.assoc
        rw [hne] at this
        simpa using this.symm
      · have h1 : popAssoc f = (.ok (), { f with assoc := f.assoc.dropLast }) := by
          unfold popAssoc
          rw [if_neg]
          rw [List.isEmpty_iff]
          exact hne
        have e := (M.bind_ok h1).symm.trans e
        refine (guardedL_blames hc hW hM hN hZ ms hs (tame_inner ht rfl).1 hg { f with assoc := f.assoc.dropLast } f' o
          { x with assoc := x.assoc.dropLast } l { hi with assoc := Nat.zero_le _ }
          { hf with assoc := (by simp [← hf.assoc]) } { hx with } hk hr e).mono id fun why b hs t ht => ⟨b, t, ht, .op204end hy ?_ ?_⟩
        · rw [← hf.assoc]
          simpa using hne
        · rw [List.append_nil]
          exact hs
    · rw [if_neg hy] at e
      have h1 : (M.modify fun f : State F => { f with assoc := f.assoc ++ [⟨d.id.Y, none⟩] }) f =
          (.ok (), { f with assoc := f.assoc ++ [⟨d.id.Y, none⟩] }) := rfl
      have e := (M.bind_ok h1).symm.trans e
      refine (guardedL_blames hc hW hM hN hZ ms hs (tame_inner ht rfl).1 hg { f with assoc := f.assoc ++ [⟨d.id.Y, none⟩] } f' o
        { x with assoc := x.assoc ++ [d.id.Y] } l { hi with assoc := Nat.zero_le _ }
        { hf with assoc := (by simp [← hf.assoc]) } { hx with } hk hr e).mono id fun why b hs t ht => ⟨b, t, ht, .op204 hy ?_⟩
      rw [List.append_nil]
      exact hs
  | .marker d, hs, ht, hg => marker_blames hc d
  | .newRefval d ms, hs, ht, hg => refval_blames hc hW hM (by simpa [guarded] using hg)
  | .assessment d bm as ms, hs, ht, hg => by
    simp only [simple, Bool.and_eq_true] at hs
    have hbd := hs.1.1.2
    cases bm with
    | bitmap d' bs =>
      cases d' with
      | none => simp [definesBitmap] at hbd
      | some bd =>
        obtain ⟨⟨⟨⟨-, h2⟩, h3⟩, h4⟩, h5⟩ := hs
        simp only [guarded, Bool.and_eq_true, Bool.or_eq_true, beq_iff_eq] at hg
        obtain ⟨⟨⟨g1, g2⟩, g3⟩, g4⟩ := hg
        have htm : tame c.compressed ms = true := by
          unfold tame at *
          simp only [ParserSpec.nodesL, ParserSpec.nodes, List.all_append, List.cons_append, List.all_cons, Bool.and_eq_true, List.append_nil] at ht ⊢
          exact ht.2.2.2
        exact assessment_blames hc hW hM hZ h2 h3 (fun h => simpleL_only hW hM hN hZ false false bs (fun h => by cases h) h) h4 g2
          (fun o => simpleL_only hW hM hN hZ o false as (fun h => by cases h) h4) (simpleL_only hW hM hN hZ true true ms id h5)
          g1 g3 (guardedL_blames hc hW hM hN hZ ms h5 htm g4) ht
    | _ => simp [definesBitmap] at hbd
  | .element d np, hs, ht, hg => .of_harmless hc (by simpa only [guarded] using hg)
  | .e031021 d, hs, ht, hg => .of_harmless hc (by simpa only [guarded] using hg)
  | .nbitsOffset d, hs, ht, hg => .of_harmless hc (by simpa only [guarded] using hg)
  | .scaleOffset d, hs, ht, hg => .of_harmless hc (by simpa only [guarded] using hg)
  | .insertString d, hs, ht, hg => .of_harmless hc (by simpa only [guarded] using hg)
  | .skipLocal d ms, hs, ht, hg => .of_harmless hc (by simpa only [guarded] using hg)
  | .modifyPacking d, hs, ht, hg => .of_harmless hc (by simpa only [guarded] using hg)
  | .setStringLength d, hs, ht, hg => .of_harmless hc (by simpa only [guarded] using hg)
  | .cancelBackRef d, hs, ht, hg => .of_harmless hc (by simpa only [guarded] using hg)
  | .cancelBitmap d, hs, ht, hg => .of_harmless hc (by simpa only [guarded] using hg)
  | .base d ms, hs, ht, hg => by simp [simple] at hs
  | .bitmap d ms, hs, ht, hg => by simp [simple] at hs
theorem guardedL_blames (hc : BinCfg c) (hW : Takes c At W k) (hM : Matches (F := F) c k) (hN : Plainly W k) (hZ : Zeroes c At) :
    ∀ (ms : List Ast), simpleL true ms = true → tame c.compressed ms = true → guardedL c.compressed ms = true →
      Blames c At W k 0 0 (visitL c ms) ms
  | [], hs, ht, hg => by
    simp only [visitL]
    exact Blames.nil
  | m :: ms, hs, ht, hg => by
    simp only [simpleL, Bool.and_eq_true] at hs
    simp only [guardedL, Bool.and_eq_true] at hg
    rw [show m :: ms = [m] ++ ms from rfl, tame_append, Bool.and_eq_true] at ht
    simp only [visitL]
    exact (guarded_blames hc hW hM hN hZ m hs.1 ht.1 hg.1).seq (simple_only hW hM hN hZ true true m id hs.1) ht.1
      (guardedL_blames hc hW hM hN hZ ms hs.2 ht.2 hg.2)
end

end Blames

end EncodeSpec
end Gobufr
