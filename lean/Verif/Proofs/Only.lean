import Verif.Spec.Only
import Verif.Proofs.EncodeJson

/-!
# Lemmas for C99: what is read was written
-/

set_option linter.unusedSimpArgs false

namespace Gobufr
namespace EncodeSpec
open Spec UnpackSpec Flat

variable {F τ : Type} {c : VisCfg} {At : List τ → Reader F → Prop} {o : Bool}

/-- Data sections one after the other. -/
theorem Coded.append [GoFloat F] {W : Wire F τ} {b : Bool} {x z y : Ctx} {ts us : List Ast} {b1 b2 : List τ}
    {i1 i2 : List (Datum F)} (h1 : Coded W b x ts b1 i1 z) (h2 : Coded W b z us b2 i2 y) :
    Coded W b x (ts ++ us) (b1 ++ b2) (i1 ++ i2) y := by
  induction h1 with
  | nil => exact h2
  | element he ha hw _ ih => simpa only [List.append_assoc, List.cons_append, List.nil_append] using Coded.element he ha hw (ih h2)
  | absent _ ih => exact .absent (ih h2)
  | significance he hw _ ih => simpa only [List.append_assoc, List.cons_append] using Coded.significance he hw (ih h2)
  | sequence _ ih =>
    have h := ih h2
    rw [List.append_assoc] at h
    exact .sequence h
  | notPresent _ ih =>
    have h := ih h2
    rw [List.append_assoc] at h
    exact .notPresent h
  | fixed _ ih =>
    have h := ih h2
    rw [List.append_assoc] at h
    exact .fixed h
  | delayed h3 hl hv ha hn _ _ ih =>
    simpa only [List.append_assoc, List.cons_append] using
      Coded.delayed h3 hl hv ha hn (by simpa only [List.append_assoc] using ih h2)
  | op201 _ ih => exact .op201 (ih h2)
  | op202 _ ih => exact .op202 (ih h2)
  | op207 _ ih => exact .op207 (ih h2)
  | op208 _ ih => exact .op208 (ih h2)
  | op203end hy _ ih => exact .op203end hy (ih h2)
  | op204 hy _ ih =>
    have h := ih h2
    rw [List.append_assoc] at h
    exact .op204 hy h
  | op204end hy hn _ ih =>
    have h := ih h2
    rw [List.append_assoc] at h
    exact .op204end hy hn h
  | op205 hw _ ih => simpa only [List.append_assoc, List.cons_append] using Coded.op205 hw (ih h2)
  | op206 hw _ ih => simpa only [List.append_assoc, List.cons_append] using Coded.op206 hw (ih h2)
  | op235 _ ih => exact .op235 (ih h2)
  | op237end _ ih => exact .op237end (ih h2)
  | bitmap hd hm hz hb hi _ _ ih =>
    simpa only [List.append_assoc, List.cons_append] using Coded.bitmap hd hm hz hb hi (ih h2)
  | recall hd hz _ ih => simpa only [List.append_assoc, List.cons_append] using Coded.recall hd hz (ih h2)
  | assessment h0 hz hb ha hc hk hne hn hm hl _ _ _ _ ih =>
    simpa only [List.append_assoc, List.cons_append] using Coded.assessment h0 hz hb ha hc hk hne hn hm hl (ih h2)
  | marker ht hs h0 he hw _ ih =>
    simpa only [List.append_assoc, List.cons_append] using Coded.marker ht hs h0 he hw (ih h2)

/-- What is read was written. -/
def Takes [GoFloat F] (c : VisCfg) (At : List τ → Reader F → Prop) (W : Wire F τ) (k : Option Nat) : Prop :=
  ∀ (info : PackingInfo F) (l : List τ) (r r' : Reader F) (v : Unpacked F) (vs : List (Val F)),
    At l r → c.unpacker.unpack info r = (.ok v, r') → Fits k v vs →
    ∃ b t, l = b ++ t ∧ W info b vs ∧ At t r'

/-- The decoder state agrees with the context, and (if `o`) has no bitmap unless the context has. -/
structure Follows [GoFloat F] (o : Bool) (f : State F) (x : Ctx) : Prop extends Agrees f x where
  fine : ∀ nd ∈ x.seen, ∀ td, nd.d = some td → fine td = true
  noCurrent : o = true → x.current = none → f.current = none
  noReusable : o = true → x.reusable = none → f.reusable = none
  someCurrent : ∀ bits, x.current = some bits → bits ≠ []
  someReusable : ∀ bits, x.reusable = some bits → bits ≠ []

theorem Follows.add [GoFloat F] {o : Bool} {f f' : State F} {x : Ctx} {is : List (Datum F)} (h : Follows o f x) (r : Reader F)
    (cols : List (Column F)) (hf : f' = { f with r := r, cols := cols }) (hc : cols.map itemOf = f.cols.map itemOf ++ is)
    (hi : ∀ i ∈ is, ∀ td, i.desc.d = some td → EncodeSpec.fine td = true) : Follows o f' (x.add is) := by
  refine { h.toAgrees.add r cols hf hc with
    fine := ?_, noCurrent := ?_, noReusable := ?_, someCurrent := h.someCurrent, someReusable := h.someReusable }
  · intro nd hnd td htd
    rcases List.mem_append.1 hnd with hnd | hnd
    · exact h.fine nd hnd td htd
    · obtain ⟨i, h1, rfl⟩ := List.mem_map.1 hnd
      exact hi i h1 td htd
  · subst hf
    exact h.noCurrent
  · subst hf
    exact h.noReusable

/-- Attributes do not matter. -/
theorem Follows.cols [GoFloat F] {o : Bool} {f f' : State F} {x : Ctx} (h : Follows o f x) (cols : List (Column F))
    (hf : f' = { f with cols := cols }) (hc : cols.map itemOf = f.cols.map itemOf) : Follows o f' x := by
  have := h.add (is := []) f.r cols (f' := f') hf (by simpa using hc) (by simp)
  simpa [Ctx.add] using this

/-- `m` reads the bits of some data section for `ts`. -/
def Only [GoFloat F] (o : Bool) (c : VisCfg) (At : List τ → Reader F → Prop) (W : Wire F τ) (k : Option Nat) (m : M (State F) Unit)
    (ts : List Ast) : Prop :=
  ∀ (f f' : State F) (x : Ctx) (l : List τ), Follows o f x → f.subsets = k → At l f.r → m f = (.ok (), f') →
    ∃ b t is y, l = b ++ t ∧ Coded W c.compatible x ts b is y ∧ At t f'.r ∧
      f'.cols.map itemOf = f.cols.map itemOf ++ is ∧ Follows o f' y ∧ f'.subsets = k

theorem Only.nil [GoFloat F] {W : Wire F τ} {k : Option Nat} : Only (F := F) o c At W k (Pure.pure ()) [] := by
  intro f f' x l ha hk hr h
  cases h
  exact ⟨[], l, [], x, rfl, .nil, hr, by simp, ha, hk⟩

theorem Only.seq [GoFloat F] {W : Wire F τ} {k : Option Nat} {m n : M (State F) Unit} {ts us : List Ast}
    (h1 : Only o c At W k m ts) (h2 : Only o c At W k n us) : Only o c At W k (m >>= fun _ => n) (ts ++ us) := by
  intro f f' x l ha hk hr h
  obtain ⟨_, g, e1, e2⟩ := M.bind_eq_ok.1 h
  obtain ⟨b1, t1, i1, z, rfl, q1, r1, c1, a1, k1⟩ := h1 f g x l ha hk hr e1
  obtain ⟨b2, t2, i2, y, rfl, q2, r2, c2, a2, k2⟩ := h2 g f' z t1 a1 k1 r1 e2
  exact ⟨b1 ++ b2, t2, i1 ++ i2, y, by simp, q1.append q2, r2, by rw [c2, c1, List.append_assoc], a2, k2⟩

theorem Only.repeatM [GoFloat F] {W : Wire F τ} {k : Option Nat} {m : M (State F) Unit} {ts : List Ast}
    (h : Only o c At W k m ts) : ∀ n, Only o c At W k (Vis.repeatM m n) (List.replicate n ts).flatten
  | 0 => Only.nil
  | n + 1 => by
    rw [List.replicate_succ, List.flatten_cons]
    exact h.seq (Only.repeatM h n)

/-- A node that is nothing but other nodes. -/
theorem Only.wrap [GoFloat F] {W : Wire F τ} {k : Option Nat} {m : M (State F) Unit} {ts us : List Ast} (h : Only o c At W k m ts)
    (hw : ∀ {x y : Ctx} {b : List τ} {is : List (Datum F)}, Coded W c.compatible x ts b is y → Coded W c.compatible x us b is y) :
    Only o c At W k m us := by
  intro f f' x l ha hk hr e
  obtain ⟨b, t, is, y, h1, h2, h3⟩ := h f f' x l ha hk hr e
  exact ⟨b, t, is, y, h1, hw h2, h3⟩

/-- A node that changes the context only. -/
theorem Only.change [GoFloat F] {W : Wire F τ} {k : Option Nat} {m : M (State F) Unit} {us : List Ast}
    (h : ∀ (f f' : State F) (x : Ctx), Follows o f x → m f = (.ok (), f') → ∃ y, Coded (F := F) W c.compatible x us [] [] y ∧
      f'.r = f.r ∧ f'.cols = f.cols ∧ f'.subsets = f.subsets ∧ Follows o f' y) :
    Only o c At W k m us := by
  intro f f' x l ha hk hr e
  obtain ⟨y, h5, h1, h2, h3, h4⟩ := h f f' x ha e
  exact ⟨[], l, [], y, rfl, h5, by rw [h1]; exact hr, by rw [h2]; simp, h4, by rw [h3]; exact hk⟩

/-- Plain values of uncompressed data, columns of compressed. -/
def KindOk : Option Nat → Unpacked F → Prop
  | none, .plain _ => True
  | some _, .compressed _ => True
  | _, _ => False

theorem fits_of_holds {k : Option Nat} {v : Unpacked F} {col : Column F} (h : Flat.Holds v col) (hk : KindOk k v) :
    Fits k v col.vals := by
  cases k <;> cases v <;> simp_all [Fits, Flat.Holds, KindOk]

/-- The reader delivers what the table wants. -/
def Matches [GoFloat F] (c : VisCfg) (k : Option Nat) : Prop :=
  ∀ (info : PackingInfo F) (r r' : Reader F) (v : Unpacked F), c.unpacker.unpack info r = (.ok v, r') → KindOk k v

theorem build_only [GoFloat F] {W : Wire F τ} {k : Option Nat} (hW : Takes c At W k) (hM : Matches (F := F) c k) {f f' : State F}
    {d : NodeDesc} {info : PackingInfo F} {i : Nat} (h : build c d info f = (.ok i, f')) {l : List τ} (hr : At l f.r) :
    i = f.cols.length ∧ ∃ col r b t, f' = { f with r := r, cols := f.cols ++ [col] } ∧ itemOf col = ⟨d, info, col.vals⟩ ∧
      l = b ++ t ∧ W info b col.vals ∧ At t r := by
  obtain ⟨rfl, v, col, r, hu, hv, hd, hi, ha, rfl⟩ := build_ok h
  obtain ⟨b, t, h1, h2, h3⟩ := hW info l f.r r v col.vals hr hu (fits_of_holds hv (hM info _ _ _ hu))
  exact ⟨rfl, col, r, b, t, rfl, by simp [itemOf, hd, hi], h1, h2, h3⟩

theorem Only.build [GoFloat F] {W : Wire F τ} {k : Option Nat} (hW : Takes c At W k) (hM : Matches (F := F) c k) {d : NodeDesc}
    {info : PackingInfo F} {us : List Ast} (hd : ∀ td, d.d = some td → fine td = true)
    (h : ∀ {x : Ctx} {b : List τ} {vs : List (Val F)}, W info b vs →
      Coded W c.compatible x us b [⟨d, info, vs⟩] (x.add [(⟨d, info, vs⟩ : Datum F)])) :
    Only o c At W k (do let _ ← Flat.build c d info; Pure.pure ()) us := by
  intro f f' x l ha hk hr e
  obtain ⟨i, g, e1, e2⟩ := M.bind_eq_ok.1 e
  cases e2
  obtain ⟨rfl, col, r, b, t, rfl, h1, rfl, h2, h3⟩ := build_only hW hM e1 hr
  refine ⟨b, t, _, _, rfl, h h2, h3, ?_, ha.add _ _ rfl ?_ ?_, hk⟩
  · simp [h1]
  · simp [h1]
  · simpa using hd

theorem assocs_only [GoFloat F] {W : Wire F τ} {k : Option Nat} (hW : Takes c At W k) (hM : Matches (F := F) c k) {d : Desc} :
    ∀ {as : List Assoc} {f f' : State F} {js : List Nat}, buildAssocs c d as f = (.ok js, f') → ∀ {l : List τ}, At l f.r →
    ∃ cols r b t is, f' = { f with r := r, cols := cols } ∧ l = b ++ t ∧ Assocs W d (as.map Assoc.nbits) b is ∧ At t r ∧
      cols.map itemOf = f.cols.map itemOf ++ is
  | [], f, f', js, h, l, hr => by
    simp only [buildAssocs, M.pure_apply, Prod.mk.injEq] at h
    obtain ⟨-, rfl⟩ := h
    exact ⟨f.cols, f.r, [], l, [], rfl, rfl, .nil, hr, by simp⟩
  | a :: as, f, f', js, h, l, hr => by
    simp only [buildAssocs] at h
    obtain ⟨i, g, h1, h2⟩ := M.bind_eq_ok.1 h
    obtain ⟨rfl, col, r, b, t, rfl, q1, rfl, q2, q3⟩ := build_only hW hM h1 hr
    obtain ⟨_, g1, h3, h4⟩ := M.bind_eq_ok.1 h2
    simp only [attachTo, M.modify_apply, Prod.mk.injEq, true_and] at h3
    subst h3
    obtain ⟨js', g2, h5, h6⟩ := M.bind_eq_ok.1 h4
    cases h6
    obtain ⟨cols, r', b', t', is, rfl, rfl, p1, p2, p3⟩ := assocs_only hW hM h5 q3
    refine ⟨cols, r', b ++ b', t', _, rfl, by simp, .cons q2 p1, p2, ?_⟩
    rw [p3]
    show ((f.cols ++ [col]).modify _ _).map itemOf ++ _ = _
    rw [items_modify]
    simp [q1, Vis.plainInfo, bare]

theorem assocs_desc [GoFloat F] {W : Wire F τ} {d : Desc} {ws : List Int} {b : List τ} {is : List (Datum F)}
    (h : Assocs W d ws b is) : ∀ i ∈ is, i.desc.d = some d := by
  induction h with
  | nil => simp
  | cons _ _ ih => exact List.forall_mem_cons.2 ⟨rfl, ih⟩

theorem packing_entry [GoFloat F] {f : State F} {d : Desc} {info : PackingInfo F} (h : f.packing (some d) = .ok info) :
    ∃ e, d.entry = .b e := by
  unfold State.packing at h
  cases he : d.entry with
  | b e => exact ⟨e, rfl⟩
  | _ => simp [he] at h

theorem buildElement_only [GoFloat F] {W : Wire F τ} {k : Option Nat} (hW : Takes c At W k) (hM : Matches (F := F) c k)
    {f f' : State F} {x : Ctx} (ha : Follows o f x) {d : Desc} {i : Nat} (h : buildElement c d f = (.ok i, f')) {l : List τ}
    (hr : At l f.r) :
    i = f.cols.length ∧ ∃ e col r b t, d.entry = .b e ∧ f' = { f with r := r, cols := f.cols ++ [col] } ∧
      itemOf col = ⟨⟨some d, false⟩, x.ops.packing e, col.vals⟩ ∧ l = b ++ t ∧ W (x.ops.packing e) b col.vals ∧ At t r := by
  unfold buildElement at h
  obtain ⟨info, g, h5, h6⟩ := M.bind_eq_ok.1 h
  simp only [Prod.mk.injEq] at h5
  obtain ⟨h5, rfl⟩ := h5
  obtain ⟨e, he⟩ := packing_entry h5
  have hp := packing_agrees ha.toAgrees he
  rw [hp] at h5
  cases h5
  obtain ⟨h1, col, r, b, t, h2⟩ := build_only hW hM h6 hr
  exact ⟨h1, e, col, r, b, t, he, h2⟩

theorem element_only [GoFloat F] {W : Wire F τ} {k : Option Nat} (hW : Takes c At W k) (hM : Matches (F := F) c k) (d : Desc)
    (hd : fine d = true) : Only o c At W k (visit c (.element d false)) [.element d false] := by
  intro f f' x l ha hk hr h
  simp only [visit, Bool.false_eq_true, if_false] at h
  obtain ⟨js, g, h1, h2⟩ := M.bind_eq_ok.1 h
  unfold elementAssocs at h1
  obtain ⟨cols, r, b, t, is, rfl, rfl, q1, q2, q3⟩ := assocs_only hW hM h1 hr
  obtain ⟨i, g, h3, h4⟩ := M.bind_eq_ok.1 h2
  have hg := ha.add (f' := { f with r := r, cols := cols }) _ _ rfl q3 fun i hi td htd => by
    rw [assocs_desc q1 i hi] at htd
    cases htd
    exact hd
  obtain ⟨rfl, e, col, r', b', t', he, rfl, p1, rfl, p2, p3⟩ := buildElement_only hW hM hg h3 q2
  rw [attachAll_eq] at h4
  cases h4
  have hcols : (((cols ++ [col]).modify cols.length fun x => { x with attrs := x.attrs ++ js.map some })).map itemOf =
      f.cols.map itemOf ++ (is ++ [⟨⟨some d, false⟩, x.ops.packing e, col.vals⟩]) := by
    rw [items_modify, List.map_append, List.map_cons, List.map_nil, p1, q3, List.append_assoc]
    rfl
  refine ⟨b ++ b', t', is ++ [⟨⟨some d, false⟩, x.ops.packing e, col.vals⟩], x.add (is ++ [⟨⟨some d, false⟩, x.ops.packing e, col.vals⟩]),
    by simp, ?_, p3, hcols, ha.add _ _ rfl hcols ?_, hk⟩
  · have hq : Assocs W d (if d.id.X = 31 then [] else x.assoc) b is := by
      rw [← ha.assoc]
      by_cases hX : d.id.X = 31
      · simpa [hX] using q1
      · simpa [hX] using q1
    simpa using Coded.element (ts := []) (bs := []) (is := []) he hq p2 .nil
  · intro i hi td htd
    rcases List.mem_append.1 hi with hi | hi
    · rw [assocs_desc q1 i hi] at htd
      cases htd
      exact hd
    · rw [List.mem_singleton.1 hi] at htd
      cases htd
      exact hd

theorem significance_only [GoFloat F] {W : Wire F τ} {k : Option Nat} (hW : Takes c At W k) (hM : Matches (F := F) c k) (d : Desc)
    (hd : fine d = true) : Only o c At W k (visit c (.e031021 d)) [.e031021 d] := by
  intro f f' x l ha hk hr h
  simp only [visit] at h
  obtain ⟨i, g, h3, h4⟩ := M.bind_eq_ok.1 h
  obtain ⟨rfl, e, col, r', b', t', he, rfl, p1, rfl, p2, p3⟩ := buildElement_only hW hM ha h3 hr
  cases h4
  have hcols : (f.cols ++ [col]).map itemOf = f.cols.map itemOf ++ [⟨⟨some d, false⟩, x.ops.packing e, col.vals⟩] := by simp [p1]
  have hg := ha.add (f' := { f with r := r', cols := f.cols ++ [col] }) _ _ rfl hcols fun i hi td htd => by
    rw [List.mem_singleton.1 hi] at htd
    cases htd
    exact hd
  have hsig : ∀ (i : Nat) (l : List Assoc), (setSig i l).map Assoc.nbits = l.map Assoc.nbits := by
    intro i l
    induction l with
    | nil => rfl
    | cons a l ih => cases l <;> simp_all [setSig]
  refine ⟨b', t', _, _, rfl, ?_, p3, hcols, { hg with assoc := ?_ }, hk⟩
  · simpa using Coded.significance (ts := []) (bs := []) (is := []) he p2 .nil
  · rw [← hg.assoc]
    exact hsig _ _

theorem yieldsL_append : ∀ ms ts : List Ast, yieldsL (ms ++ ts) = (yieldsL ms || yieldsL ts)
  | [], ts => by simp [yieldsL]
  | m :: ms, ts => by simp only [List.cons_append, yieldsL, yieldsL_append ms ts, Bool.or_assoc]

/-- Nodes that are never without a value have one. -/
theorem Coded.nonempty [GoFloat F] {W : Wire F τ} {b : Bool} {x y : Ctx} {ts : List Ast} {bs : List τ} {is : List (Datum F)}
    (h : Coded W b x ts bs is y) (hy : yieldsL ts = true) : is ≠ [] := by
  induction h with
  | nil => cases hy
  | element _ _ _ _ _ => simp
  | absent _ ih => exact ih (by simpa [yieldsL, yields] using hy)
  | significance _ _ _ _ => simp
  | sequence _ ih => exact ih (by simpa [yieldsL, yields, yieldsL_append] using hy)
  | notPresent _ ih => exact ih (by simpa [yieldsL, yields, yieldsL_append] using hy)
  | @fixed x y ts ms bs is d _ ih =>
    refine ih ?_
    rw [yieldsL_append]
    simp only [yieldsL, yields, Bool.or_eq_true, Bool.and_eq_true, decide_eq_true_eq] at hy ⊢
    rcases hy with ⟨h1, h2⟩ | hy
    · left
      obtain ⟨n, hn⟩ : ∃ n, d.id.Y.toNat = n + 1 := ⟨d.id.Y.toNat - 1, by omega⟩
      rw [hn, List.replicate_succ, List.flatten_cons, yieldsL_append, h2, Bool.true_or]
    · exact .inr hy
  | @delayed _ _ _ _ _ _ _ _ fs is _ _ _ _ _ _ hl _ _ _ _ _ _ =>
    intro h
    rw [List.append_eq_nil_iff] at h
    rw [h.1] at hl
    cases hl
  | op201 _ ih => exact ih (by simpa [yieldsL, yields] using hy)
  | op202 _ ih => exact ih (by simpa [yieldsL, yields] using hy)
  | op207 _ ih => exact ih (by simpa [yieldsL, yields] using hy)
  | op208 _ ih => exact ih (by simpa [yieldsL, yields] using hy)
  | op203end _ _ ih => exact ih (by simpa [yieldsL, yields] using hy)
  | op204 _ _ ih => exact ih (by simpa [yieldsL, yields, yieldsL_append] using hy)
  | op204end _ _ _ ih => exact ih (by simpa [yieldsL, yields, yieldsL_append] using hy)
  | op205 _ _ _ => simp
  | op206 _ _ _ => simp
  | op235 _ ih => exact ih (by simpa [yieldsL, yields] using hy)
  | op237end _ ih => exact ih (by simpa [yieldsL, yields] using hy)
  | bitmap _ _ _ _ _ _ _ ih2 =>
    have := ih2 (by simpa [yieldsL, yields] using hy)
    simp [this]
  | recall _ _ _ ih =>
    have := ih (by simpa [yieldsL, yields] using hy)
    simp [this]
  | assessment _ _ _ _ _ _ _ _ _ _ _ _ _ _ ih =>
    have := ih (by simpa [yieldsL, yields] using hy)
    simp [this]
  | marker _ _ _ _ _ _ _ => simp

theorem factor_last [GoFloat F] {W : Wire F τ} {b : Bool} {x y : Ctx} {m : Ast} {bs : List τ} {is : List (Datum F)}
    (h : Coded W b x [m] bs is y) (hm : yields m = true) : ∃ it, is.getLast? = some it := by
  have := h.nonempty (by simp [yieldsL, hm])
  exact ⟨_, List.getLast?_eq_some_getLast this⟩

/-- Uncompressed data have one value for each element. -/
def Plainly (W : Wire F τ) (k : Option Nat) : Prop := k = none → ∀ info b vs, W info b vs → ∃ v, vs = [v]

/-- What the factor of a replication says. -/
theorem delayed_facts [GoFloat F] {W : Wire F τ} {k : Option Nat} {m : Ast} (hN : Plainly W k) (hm : yields m = true) {b : Bool}
    {x z : Ctx} {b1 : List τ} {fs before : List (Datum F)} {g : State F} (q1 : Coded W b x [m] b1 fs z)
    (c1 : g.cols.map itemOf = before ++ fs) (a1 : g.subsets ≠ some 0) (k1 : g.subsets = k) {n : Int} {v : Val F} {j : Nat}
    (e2 : g.lastEqual = .ok true) (e3 : g.len = .ok n) (e4 : g.value (n - 1) = .ok v) (e6 : Cell.uintValue ⟨0, v⟩ = .ok j) :
    ∃ it vs, fs.getLast? = some it ∧ it.vals = v :: vs ∧ (∀ w ∈ vs, Alike v w) ∧ numberOf v = some j := by
  obtain ⟨it, hit⟩ := factor_last q1 hm
  have hn : n = g.cols.length := by
    unfold State.len at e3
    rw [if_neg a1] at e3
    cases e3
    rfl
  have hlast : ∃ col, g.cols[g.cols.length - 1]? = some col ∧ itemOf col = it := by
    have : (g.cols.map itemOf).getLast? = some it := by
      rw [c1, List.getLast?_append, hit]
      rfl
    rw [List.getLast?_map] at this
    cases hc : g.cols.getLast? with
    | none => rw [hc] at this; simp at this
    | some col =>
      rw [hc] at this
      rw [List.getLast?_eq_getElem?] at hc
      exact ⟨col, hc, by simpa using this⟩
  obtain ⟨col, hcol, hit'⟩ := hlast
  have hlt := (List.getElem?_eq_some_iff.1 hcol).1
  have hi : index g.cols ((g.cols.length : Int) - 1) = .ok col := by
    have := index_some hcol
    rwa [show ((g.cols.length - 1 : Nat) : Int) = (g.cols.length : Int) - 1 by omega] at this
  have hv : v = col.vals.getD 0 .nil := by
    unfold State.value at e4
    rw [hn, hi] at e4
    cases e4
    rfl
  have hnum : numberOf v = some j := (Gobufr.uintValue_eq _ _ _).1 e6
  cases hcv : col.vals with
  | nil =>
    rw [hcv] at hv
    rw [hv] at hnum
    simp [numberOf] at hnum
  | cons w vs =>
    have hw : v = w := by rw [hv, hcv]; rfl
    subst hw
    have hb : NotBytes v := by
      intro b hb
      rw [hb] at hnum
      simp [numberOf] at hnum
    refine ⟨it, vs, hit, by rw [← hit']; exact hcv, ?_, hnum⟩
    cases hs : g.subsets with
    | none =>
      obtain ⟨b, hb⟩ := q1.each it (List.mem_of_getLast? hit)
      obtain ⟨u, hu⟩ := hN (k1.symm.trans hs) _ _ _ hb
      rw [← hit'] at hu
      have : col.vals = [u] := hu
      rw [hcv] at this
      cases this
      simp
    | some m =>
      unfold State.lastEqual at e2
      simp only [hs, hi, Outcome.bind_ok, hcv] at e2
      obtain ⟨b, h3, h4⟩ := allEqual_iff hb vs
      rw [h3] at e2
      cases e2
      exact h4.1 rfl

theorem delayed_only [GoFloat F] {W : Wire F τ} {k : Option Nat} {factor block : M (State F) Unit} {m : Ast} {ms : List Ast}
    (hN : Plainly W k) (h1 : Only o c At W k factor [m]) (hm : yields m = true) (h2 : Only o c At W k block ms) (d : Desc) :
    Only o c At W k (delayed factor block) [.delayedRepl d (m :: ms)] := by
  intro f f' x l ha hk hr h
  unfold delayed at h
  obtain ⟨_, g, e1, h⟩ := M.bind_eq_ok.1 h
  obtain ⟨b1, t1, fs, z, rfl, q1, r1, c1, a1, k1⟩ := h1 f g x l ha hk hr e1
  obtain ⟨same, g1, e2, h⟩ := M.bind_eq_ok.1 h
  obtain ⟨e2, rfl⟩ := Prod.mk.inj e2
  cases same with
  | false => simp [M.fail] at h
  | true =>
  simp only [Bool.not_true, Bool.false_eq_true, if_false] at h
  obtain ⟨n, g2, e3, h⟩ := M.bind_eq_ok.1 h
  obtain ⟨e3, rfl⟩ := Prod.mk.inj e3
  obtain ⟨v, g3, e4, h⟩ := M.bind_eq_ok.1 h
  obtain ⟨e4, rfl⟩ := Prod.mk.inj e4
  obtain ⟨j, g4, e5, h⟩ := M.bind_eq_ok.1 h
  rw [M.lift_apply] at e5
  obtain ⟨e6, e7⟩ := Prod.mk.inj e5
  cases e7
  obtain ⟨it, vs, n1, n2, n3, n4⟩ := delayed_facts hN hm q1 c1 a1.subsets k1 (congrArg Prod.fst e2) (congrArg Prod.fst e3) (congrArg Prod.fst e4) e6
  obtain ⟨b2, t2, is, y, rfl, q2, r2, c2, a2, k2⟩ := h2.repeatM j g f' z t1 a1 k1 r1 h
  refine ⟨b1 ++ b2, t2, fs ++ is, y, by simp, ?_, r2, by rw [c2, c1, List.append_assoc], a2, k2⟩
  refine .delayed q1 n1 n2 n3 n4 ?_
  rw [List.append_nil]
  exact q2

/-- Nothing can go wrong with values of no width. -/
def Zeroes [GoFloat F] (c : VisCfg) (At : List τ → Reader F → Prop) : Prop :=
  ∀ (l : List τ) (r : Reader F), At l r → ∀ e r', c.unpacker.unpack (Vis.plainInfo .nonnegCode 0) r ≠ (.err e, r')

theorem zero_only [GoFloat F] {W : Wire F τ} {k : Option Nat} (hW : Takes c At W k) (hM : Matches (F := F) c k) (hZ : Zeroes c At)
    {d : Desc} {f f' : State F} (h : buildZero c d f = (.ok (), f')) {l : List τ} (hr : At l f.r) :
    ∃ cols r b t zs, f' = { f with r := r, cols := cols } ∧ l = b ++ t ∧ Zero W c.compatible d b zs ∧ At t r ∧
      cols.map itemOf = f.cols.map itemOf ++ zs ∧ ∀ i ∈ zs, i.desc.d = some d := by
  unfold buildZero at h
  by_cases hc : c.compatible = true
  · rw [if_pos hc] at h
    unfold M.ignoreErr at h
    rw [M.bind_apply] at h
    rcases hb : build c ⟨some d, false⟩ (Vis.plainInfo .nonnegCode 0) f with ⟨o, g⟩
    rw [hb] at h
    cases o with
    | ok i =>
      simp only [M.pure_apply, Prod.mk.injEq, true_and] at h
      subst h
      obtain ⟨rfl, col, r, b, t, rfl, h1, rfl, h2, h3⟩ := build_only hW hM hb hr
      exact ⟨_, r, b, t, _, rfl, rfl, .on hc h2, h3, by rw [List.map_append, List.map_cons, List.map_nil, h1]; rfl, by simp⟩
    | err e =>
      exfalso
      unfold build at hb
      rcases hu : c.unpacker.unpack (Vis.plainInfo .nonnegCode 0) f.r with ⟨o, r⟩
      have hz : M.zoom State.r (fun r f => { f with r := r }) (c.unpacker.unpack (Vis.plainInfo .nonnegCode 0)) f =
          (o, { f with r := r }) := by
        unfold M.zoom
        rw [hu]
      cases o with
      | ok v =>
        have hb := (M.bind_ok hz).symm.trans hb
        simp only at hb
        split at hb <;> cases hb
      | err e' => exact hZ l f.r hr e' r hu
      | panic w =>
        have hb := (M.bind_panic hz).symm.trans hb
        cases hb
      | diverge =>
        have hb := (M.bind_diverge hz).symm.trans hb
        cases hb
    | panic w => simp at h
    | diverge => simp at h
  · rw [if_neg hc] at h
    cases h
    exact ⟨f.cols, f.r, [], l, [], rfl, rfl, .off (by simpa using hc), hr, by simp, by simp⟩

theorem marker_only [GoFloat F] {W : Wire F τ} {k : Option Nat} (hW : Takes c At W k) (hM : Matches (F := F) c k) (d : Desc)
    (hd : fine d = true) : Only o c At W k (visit c (.marker d)) [.marker d] := by
  intro f f' x l ha hk hr h
  simp only [visit] at h
  unfold marker at h
  obtain ⟨t, g, h1, h⟩ := M.bind_eq_ok.1 h
  cases hts : f.targets with
  | nil =>
    simp only [hts] at h1
    cases h1
  | cons t' rest =>
    simp only [hts] at h1
    cases h1
    obtain ⟨td, g, h2, h⟩ := M.bind_eq_ok.1 h
    obtain ⟨h2, rfl⟩ := Prod.mk.inj h2
    simp only at h2
    cases hcol : f.cols[t]? with
    | none =>
      simp only [hcol] at h2
      cases h2
    | some col =>
      simp only [hcol] at h2
      cases h2
      obtain ⟨info, g, h3, h⟩ := M.bind_eq_ok.1 h
      obtain ⟨h4, rfl⟩ := Prod.mk.inj h3
      clear h3
      cases htd : col.desc.d with
      | none =>
        rw [htd] at h4
        cases h4
      | some td =>
        rw [htd] at h4
        obtain ⟨e, he⟩ := packing_entry h4
        have ha1 : Follows o { f with targets := rest } { x with targets := rest } := { ha with targets := rfl }
        have hp := packing_agrees ha1.toAgrees he
        rw [hp] at h4
        cases h4
        have hseen : x.seen[t]? = some ⟨some td, col.desc.assoc⟩ := by
          rw [← ha.seen, List.getElem?_map, hcol, ← htd]
          rfl
        have hF : td.id.F = 0 := by
          have := ha.fine _ (List.mem_of_getElem? hseen) td rfl
          simpa [fine, he] using this
        have hop : ¬ (some td).map (fun x : Desc => x.id.Operator) = some 225 := by
          simp only [Option.map_some, Option.some.injEq]
          exact not_225 hF
        simp only [htd, if_neg hop] at h
        obtain ⟨i, g, e1, e2⟩ := M.bind_eq_ok.1 h
        cases e2
        obtain ⟨rfl, col', r, b, t, rfl, q1, rfl, q2, q3⟩ := build_only hW hM e1 hr
        have hcols : (f.cols ++ [col']).map itemOf = f.cols.map itemOf ++ [⟨⟨some d, false⟩, x.ops.packing e, col'.vals⟩] := by
          rw [List.map_append, List.map_cons, List.map_nil, q1]
        refine ⟨b, t, _, _, rfl, ?_, q3, hcols, ha1.add _ _ rfl hcols ?_, hk⟩
        · simpa using Coded.marker (ts := []) (bs := []) (is := []) (ha.targets.symm.trans hts) hseen hF he q2 .nil
        · intro i hi td htd
          rw [List.mem_singleton.1 hi] at htd
          cases htd
          exact hd

/-- The bits of a bitmap from the items. -/
theorem bitsAt_numbers [GoFloat F] {cols cols' : List (Column F)} {is : List (Datum F)} (h : cols'.map itemOf = cols.map itemOf ++ is)
    {bits : List Nat} (hb : BitsAt cols' ⟨cols.length, cols'.length⟩ bits) :
    is.map (fun i => i.vals.head?.bind numberOf) = bits.map some := by
  have hl := items_length h
  have hlb : bits.length = is.length := by
    have := hb.length
    simp only at this
    omega
  apply List.ext_getElem?
  intro j
  rw [List.getElem?_map, List.getElem?_map]
  cases hj : bits[j]? with
  | none =>
    rw [List.getElem?_eq_none (by rw [List.getElem?_eq_none_iff] at hj; omega)]
    rfl
  | some n =>
    obtain ⟨k, col, v, h1, h2, h3, h4⟩ := hb.bit j n hj
    have hk : k = cols.length + j := by
      simp only at h1
      omega
    subst hk
    have e := congrArg (fun l => l[cols.length + j]?) h
    simp only [List.getElem?_map, h2, Option.map_some] at e
    rw [List.getElem?_append_right (by simp)] at e
    simp only [List.length_map, Nat.add_sub_cancel_left] at e
    rw [← e]
    simp [itemOf, h3, h4]

theorem deferDo_inv {σ : Type} {m d : M σ Unit} (hn : ∀ s e s', d s ≠ (.err e, s')) {s s' : σ} (h : M.deferDo d m s = (.ok (), s')) :
    ∃ s1, m s = (.ok (), s1) ∧ d s1 = (.ok (), s') := by
  unfold M.deferDo at h
  rcases hm : m s with ⟨o, s1⟩
  rw [hm] at h
  cases o with
  | ok a =>
    simp only at h
    rcases hd : d s1 with ⟨o, s2⟩
    rw [hd] at h
    cases o with
    | err e => exact absurd hd (hn _ _ _)
    | _ =>
      cases h
      try exact ⟨s1, rfl, hd⟩
  | err e =>
    simp only at h
    rcases hd : d s1 with ⟨o, s2⟩
    rw [hd] at h
    cases o <;> cases h
  | panic w =>
    simp only at h
    rcases hd : d s1 with ⟨o, s2⟩
    rw [hd] at h
    cases o <;> cases h
  | diverge => cases h

/-- The bitmap of an assessment is read; what it says is not known before it is used. -/
theorem bitmap_only [GoFloat F] {W : Wire F τ} {k : Option Nat} (hW : Takes c At W k) (hM : Matches (F := F) c k) (hZ : Zeroes c At)
    {bm : Ast} (hbm : definesBitmap bm = true)
    (hin : ∀ d ms, bm = .bitmap d ms → simpleL false ms = true → Only (F := F) false c At W k (visitL c ms) ms)
    {f f' : State F} {x : Ctx} {l : List τ} (ha : Follows true f x) (hk : f.subsets = k)
    (hr : At l f.r) (h : visit c bm f = (.ok (), f')) :
    ∃ b t is, l = b ++ t ∧ At t f'.r ∧ f'.cols.map itemOf = f.cols.map itemOf ++ is ∧ f'.subsets = k ∧ f'.backref = f.backref ∧
      (∃ x0, Follows false f' x0) ∧
      ((∃ y, Coded W c.compatible x [bm] b is y ∧ Follows true f' y) ∨
        ∃ cb bp, f'.current = some cb ∧ f'.bitmaps[cb]? = some bp ∧ 0 ≤ bp.index0 ∧ bp.index0 ≤ bp.index1 ∧ bp.index1 ≤ f'.cols.length ∧
          ∀ bits, BitsAt f'.cols bp bits → ∃ y, Coded W c.compatible x [bm] b is y ∧ Follows true f' y) := by
  cases bm with
  | bitmap d ms =>
    cases d with
    | none => simp [definesBitmap] at hbm
    | some d =>
      simp only [definesBitmap, Bool.and_eq_true, Bool.or_eq_true, beq_iff_eq] at hbm
      obtain ⟨hd, hbm⟩ := hbm
      simp only [visit] at h
      unfold bitmapDef at h
      simp only at h
      obtain ⟨_, f0, e0, h⟩ := M.bind_eq_ok.1 h
      obtain ⟨cols, r, zb, t, zs, rfl, rfl, q1, q2, q3, q4⟩ := zero_only hW hM hZ e0 hr
      have a0 : Follows true { f with r := r, cols := cols } (x.add zs) := ha.add _ _ rfl q3 fun i hi td htd => by
        rw [q4 i hi] at htd
        cases htd
        exact hd
      by_cases hid : d.id = 237000
      · rw [if_pos hid] at h
        cases h
        have a1 : Follows true { f with r := r, cols := cols, current := f.reusable } { x.add zs with current := x.reusable } :=
          { a0 with current := a0.reusable, noCurrent := a0.noReusable, someCurrent := a0.someReusable }
        refine ⟨zb, t, zs, rfl, q2, q3, hk, rfl, ⟨_, { a1 with
          noCurrent := (fun h => by cases h), noReusable := (fun h => by cases h) }⟩, .inl ⟨_, ?_, a1⟩⟩
        simpa using Coded.recall (ts := []) (bs := []) (is := []) hid q1 .nil
      · rw [if_neg hid] at h
        rcases hbm with hbm | hbm
        · exact absurd hbm hid
        · obtain ⟨⟨hap, hyi⟩, hsi⟩ := hbm
          obtain ⟨_, f1, e1, h⟩ := M.bind_eq_ok.1 h
          rw [newBitmap_ok e1] at h
          clear e1 f1
          simp only at h
          obtain ⟨f2, e2, e3⟩ : ∃ f2, visitL c ms
              { f with r := r, cols := cols, bitmaps := f.bitmaps ++ [{ index0 := cols.length }],
                       current := some f.bitmaps.length, reusable := some f.bitmaps.length } = (.ok (), f2) ∧
              endBitmap f2 = (.ok (), f') := deferDo_inv endBitmap_no_err h
          have a1 : Follows false
              { f with r := r, cols := cols, bitmaps := f.bitmaps ++ [{ index0 := cols.length }],
                       current := some f.bitmaps.length, reusable := some f.bitmaps.length }
              { x.add zs with current := none, reusable := none } :=
            { a0 with current := (fun _ h => by cases h), reusable := (fun _ h => by cases h), noCurrent := (fun h => by cases h),
                      noReusable := (fun h => by cases h), someCurrent := (fun _ h => by cases h),
                      someReusable := (fun _ h => by cases h) }
          obtain ⟨b, t, is, z, rfl, p1, p2, p3, p4, p5⟩ := hin _ _ rfl hsi _ f2 _ _ a1 hk q2 e2
          obtain ⟨hbs, hcur, hreu, hback⟩ := apart_frame hap e2
          simp only at hbs hcur hreu hback
          obtain ⟨cb, hcb, rfl⟩ := endBitmap_ok e3
          rw [hcur] at hcb
          cases hcb
          simp only at p2 p3 p4 p5
          have hne : is ≠ [] := p1.nonempty hyi
          have hb3 : (f2.bitmaps.modify f.bitmaps.length fun x =>
              { x with index1 := f2.cols.length })[f.bitmaps.length]? = some ⟨cols.length, f2.cols.length⟩ := by
            rw [hbs]
            simp [List.getElem?_modify]
          refine ⟨zb ++ b, t, zs ++ is, by simp, p2, by simp only; rw [p3, q3, List.append_assoc], p5, hback,
            ⟨{ z with current := none, reusable := none }, ?_⟩,
            .inr ⟨f.bitmaps.length, _, hcur, hb3, by simp, by
              have := items_length p3
              simp only at this ⊢
              omega, by simp, fun bits hbits => ?_⟩⟩
          · exact { p4 with
              current := (fun _ h => by cases h), reusable := (fun _ h => by cases h), noCurrent := (fun h => by cases h)
              noReusable := (fun h => by cases h), someCurrent := (fun _ h => by cases h), someReusable := (fun _ h => by cases h) }
          · have hnum := bitsAt_numbers p3 hbits
            refine ⟨{ z with current := some bits, reusable := some bits }, ?_, ?_⟩
            · simpa using Coded.bitmap (ts := []) (bs := []) (is := []) hid hap q1 p1 hnum .nil
            · have hbn : bits ≠ [] := by
                rintro rfl
                exact hne (by simpa using hnum)
              exact { p4 with
                current := (fun l hl => by cases hl; exact ⟨_, _, hcur, hb3, hbits⟩)
                reusable := (fun l hl => by cases hl; exact ⟨_, _, hreu, hb3, hbits⟩)
                noCurrent := (fun _ h => by cases h), noReusable := (fun _ h => by cases h)
                someCurrent := (fun l hl => by cases hl; exact hbn), someReusable := (fun l hl => by cases hl; exact hbn) }
  | _ => simp [definesBitmap] at hbm

/-- Nodes that define no bitmap. -/
def NoBitmap (n : Ast) : Prop := (∀ d bm as ms, n ≠ .assessment d bm as ms) ∧ ∀ d ms, n ≠ .bitmap d ms

mutual
theorem simple_nodes : ∀ m : Ast, simple false m = true → ∀ n ∈ ParserSpec.nodes m, NoBitmap n
  | .element d np, h => by simp [ParserSpec.nodes, NoBitmap]
  | .e031021 d, h => by simp [ParserSpec.nodes, NoBitmap]
  | .nbitsOffset d, h => by simp [ParserSpec.nodes, NoBitmap]
  | .scaleOffset d, h => by simp [ParserSpec.nodes, NoBitmap]
  | .modifyPacking d, h => by simp [ParserSpec.nodes, NoBitmap]
  | .setStringLength d, h => by simp [ParserSpec.nodes, NoBitmap]
  | .insertString d, h => by simp [ParserSpec.nodes, NoBitmap]
  | .cancelBackRef d, h => by simp [ParserSpec.nodes, NoBitmap]
  | .cancelBitmap d, h => by simp [ParserSpec.nodes, NoBitmap]
  | .marker d, h => by simp [ParserSpec.nodes, NoBitmap]
  | .sequence d ms, h => by
    have := simpleL_nodes ms (by simpa [simple] using h)
    simpa [ParserSpec.nodes, NoBitmap] using this
  | .fixedRepl d ms, h => by
    have := simpleL_nodes ms (by simpa [simple] using h)
    simpa [ParserSpec.nodes, NoBitmap] using this
  | .assocField d ms, h => by
    have := simpleL_nodes ms (by simpa [simple] using h)
    simpa [ParserSpec.nodes, NoBitmap] using this
  | .dataNotPresent d ms, h => by
    have := simpleL_nodes ms (by simpa [simple] using h)
    simpa [ParserSpec.nodes, NoBitmap] using this
  | .newRefval d ms, h => by
    simp only [simple, Bool.and_eq_true] at h
    have := simpleL_nodes ms h.2
    simpa [ParserSpec.nodes, NoBitmap] using this
  | .skipLocal d ms, h => by
    simp only [simple, Bool.and_eq_true] at h
    have := simpleL_nodes ms h.1
    simpa [ParserSpec.nodes, NoBitmap] using this
  | .delayedRepl d ms, h => by
    simp only [simple, Bool.and_eq_true] at h
    have := simpleL_nodes ms h.1
    simpa [ParserSpec.nodes, NoBitmap] using this
  | .assessment _ _ _ _, h => by simp [simple] at h
  | .bitmap _ _, h => by simp [simple] at h
  | .base _ _, h => by simp [simple] at h
theorem simpleL_nodes : ∀ ms : List Ast, simpleL false ms = true → ∀ n ∈ ParserSpec.nodesL ms, NoBitmap n
  | [], _ => by simp [ParserSpec.nodesL]
  | m :: ms, h => by
    simp only [simpleL, Bool.and_eq_true] at h
    intro n hn
    simp only [ParserSpec.nodesL, List.mem_append] at hn
    rcases hn with hn | hn
    · exact simple_nodes m h.1 n hn
    · exact simpleL_nodes ms h.2 n hn
end

theorem keeps_bitmap [GoFloat F] : Keeps (F := F) c NoBitmap fun f f' =>
    f'.bitmaps = f.bitmaps ∧ (f'.current = f.current ∨ f'.current = none) ∧ (f'.backref = f.backref ∨ f'.backref = -1) where
  refl f := ⟨rfl, .inl rfl, .inl rfl⟩
  trans f g h h1 h2 := by
    obtain ⟨a1, a2, a3⟩ := h1
    obtain ⟨b1, b2, b3⟩ := h2
    refine ⟨b1.trans a1, ?_, ?_⟩
    · rcases b2 with b2 | b2
      · rw [b2]
        exact a2
      · exact .inr b2
    · rcases b3 with b3 | b3
      · rw [b3]
        exact a3
      · exact .inr b3
  build d info f i f' h := by
    obtain ⟨_, v, col, r, _, _, _, _, _, rfl⟩ := build_ok h
    exact ⟨rfl, .inl rfl, .inl rfl⟩
  zero d f f' h := by
    obtain ⟨r, cols, rfl⟩ := zero_fields h
    exact ⟨rfl, .inl rfl, .inl rfl⟩
  attach _ _ _ := ⟨rfl, .inl rfl, .inl rfl⟩
  setSig _ _ _ _ := ⟨rfl, .inl rfl, .inl rfl⟩
  assocField _ _ _ _ _ := ⟨rfl, .inl rfl, .inl rfl⟩
  targets _ _ := ⟨rfl, .inl rfl, .inl rfl⟩
  nbitsOffset _ _ _ _ := ⟨rfl, .inl rfl, .inl rfl⟩
  scaleOffset _ _ _ _ := ⟨rfl, .inl rfl, .inl rfl⟩
  modifyPacking _ _ _ _ _ _ := ⟨rfl, .inl rfl, .inl rfl⟩
  setStringLength _ _ _ _ := ⟨rfl, .inl rfl, .inl rfl⟩
  newAssessment d bm as ms _ _ h _ := absurd rfl (h.1 d bm as ms)
  cancelBackRef _ _ _ := ⟨rfl, .inr rfl, .inr rfl⟩
  cancelBitmap _ _ _ := ⟨rfl, .inr rfl, .inl rfl⟩
  newBitmap d ms _ _ h _ _ := absurd rfl (h.2 _ ms)
  endBitmap d ms _ _ h _ _ := absurd rfl (h.2 _ ms)
  recall d ms _ h _ := absurd rfl (h.2 _ ms)

/-- The bits of a bitmap were there when it was read. -/
theorem bitsAt_before [GoFloat F] {cols cols' : List (Column F)} {new : List (Datum F)} (h : cols'.map itemOf = cols.map itemOf ++ new)
    {b : Bitmap} {bits : List Nat} (hb : BitsAt cols' b bits) (hl : b.index1 ≤ cols.length) : BitsAt cols b bits := by
  refine ⟨hb.length, fun j n hj => ?_⟩
  obtain ⟨k, col, v, h1, h2, h3, h4⟩ := hb.bit j n hj
  have hjl := (List.getElem?_eq_some_iff.1 hj).1
  have hlen := hb.length
  have hk : k < cols.length := by omega
  have e := congrArg (fun l => l[k]?) h
  simp only [List.getElem?_append_left (show k < (cols.map itemOf).length by simpa using hk), List.getElem?_map, h2,
    Option.map_some, List.getElem?_eq_getElem hk, Option.some.injEq] at e
  have ev : col.vals = cols[k].vals := congrArg Datum.vals e
  exact ⟨k, cols[k], v, h1, List.getElem?_eq_getElem hk, by rw [← ev]; exact h3, h4⟩

theorem bits_inv [GoFloat F] {f : State F} {bits : List Nat} (h : f.bits = .ok bits) :
    ∃ cb b, f.current = some cb ∧ f.bitmaps[cb]? = some b ∧ BitsAt f.cols b bits := by
  unfold State.bits at h
  cases hc : f.current with
  | none => simp [hc] at h
  | some cb =>
    cases hb : f.bitmaps[cb]? with
    | none => simp [hc, hb] at h
    | some b =>
      simp only [hc, Option.bind_some, hb] at h
      split at h
      · cases h
      · rename_i h0
        obtain ⟨hl, hbit⟩ := bitsOf_ok h
        exact ⟨cb, b, rfl, hb, by omega, hbit⟩

theorem bitsAt_unique [GoFloat F] {cols : List (Column F)} {b : Bitmap} {bits bits' : List Nat} (h : BitsAt cols b bits)
    (h' : BitsAt cols b bits') : bits = bits' := by
  apply List.ext_getElem?
  intro j
  have hl : bits.length = bits'.length := by
    have h1 := h.length
    have h2 := h'.length
    omega
  cases hj : bits[j]? with
  | none => rw [List.getElem?_eq_none (by rw [List.getElem?_eq_none_iff] at hj; omega)]
  | some n =>
    have hlt := (List.getElem?_eq_some_iff.1 hj).1
    have hj' : bits'[j]? = some bits'[j] := List.getElem?_eq_getElem (by omega)
    obtain ⟨k, col, v, h1, h2, h3, h4⟩ := h.bit j n hj
    obtain ⟨k', col', v', h1', h2', h3', h4'⟩ := h'.bit j _ hj'
    have : k = k' := by omega
    subst this
    rw [h2] at h2'
    cases h2'
    rw [h3] at h3'
    cases h3'
    rw [h4] at h4'
    rw [hj']
    exact h4'

theorem select_inv [GoFloat F] {f : State F} {x : Ctx} (ha : Follows true f x) {bits : List Nat} (h : f.bits = .ok bits) :
    x.current = some bits := by
  obtain ⟨cb, b, h1, h2, h3⟩ := bits_inv h
  cases hx : x.current with
  | none =>
    rw [ha.noCurrent rfl hx] at h1
    cases h1
  | some bits' =>
    obtain ⟨cb', b', q1, q2, q3⟩ := ha.current _ hx
    rw [h1] at q1
    cases q1
    rw [h2] at q2
    cases q2
    rw [bitsAt_unique h3 q3]

/-- The parts of an assessment up to the values. -/
theorem chain_only [GoFloat F] {W : Wire F τ} {k : Option Nat} (hW : Takes c At W k) (hM : Matches (F := F) c k) (hZ : Zeroes c At)
    {d : Desc} {bm : Ast} {as : List Ast} (hd : fine d = true) (hbm : definesBitmap bm = true)
    (hin : ∀ d ms, bm = .bitmap d ms → simpleL false ms = true → Only (F := F) false c At W k (visitL c ms) ms)
    (has : simpleL false as = true)
    (ho : ∀ o, Only o c At W k (visitL c as) as) {f1 f2 f3 f4 : State F} {x : Ctx} {l : List τ} (ha : Follows true f1 x)
    (hk : f1.subsets = k) (hr : At l f1.r) (h2 : buildZero c d f1 = (.ok (), f2)) (h3 : visit c bm f2 = (.ok (), f3))
    (h4 : visitL c as f3 = (.ok (), f4)) {bits : List Nat} (hbits : f4.bits = .ok bits) :
    ∃ zb b1 b2 t zs i1 i2 x1 x2, l = zb ++ b1 ++ b2 ++ t ∧ Zero W c.compatible d zb zs ∧
      Coded W c.compatible (x.add zs) [bm] b1 i1 x1 ∧ Coded W c.compatible x1 as b2 i2 x2 ∧ At t f4.r ∧
      f4.cols.map itemOf = f1.cols.map itemOf ++ (zs ++ i1 ++ i2) ∧ Follows true f4 x2 ∧ f4.subsets = k ∧
      (f4.backref = f1.backref ∨ f4.backref = -1) := by
  obtain ⟨cols, r, zb, t, zs, rfl, rfl, q1, q2, q3, q4⟩ := zero_only hW hM hZ h2 hr
  have a0 : Follows true { f1 with r := r, cols := cols } (x.add zs) := ha.add _ _ rfl q3 fun i hi td htd => by
    rw [q4 i hi] at htd
    cases htd
    exact hd
  obtain ⟨b1, t1, i1, rfl, p1, p2, p3, p4, ⟨x0, p5⟩, p6⟩ := bitmap_only hW hM hZ hbm hin a0 hk q2 h3
  obtain ⟨k1, k2, k3⟩ := keeps_bitmap.visitL as (simpleL_nodes as has) f3 () f4 h4
  have hy : ∃ y, Coded W c.compatible (x.add zs) [bm] b1 i1 y ∧ Follows true f3 y := by
    rcases p6 with p6 | ⟨cb, bp, n1, n2, -, -, n3, n4⟩
    · exact p6
    · obtain ⟨-, -, i2, -, -, -, -, m1, -⟩ := ho false f3 f4 x0 t1 p5 p3 p1 h4
      obtain ⟨cb', bp', o1, o2, o3⟩ := bits_inv hbits
      have hcb : f4.current = f3.current := by
        rcases k2 with k2 | k2
        · exact k2
        · rw [k2] at o1
          cases o1
      rw [hcb, n1] at o1
      cases o1
      rw [k1, n2] at o2
      cases o2
      exact n4 bits (bitsAt_before m1 o3 n3)
  obtain ⟨y, y1, y2⟩ := hy
  obtain ⟨b2, t2, i2, x2, rfl, m1, m2, m3, m4, m5⟩ := ho true f3 f4 y t1 y2 p3 p1 h4
  refine ⟨zb, b1, b2, t2, zs, i1, i2, y, x2, by simp, q1, y1, m1, m2, ?_, m4, m5, ?_⟩
  · rw [m3, p2]
    show cols.map itemOf ++ _ ++ _ = _
    rw [q3]
    simp
  · rw [← p4]
    exact k3

theorem assessment_only [GoFloat F] {W : Wire F τ} {k : Option Nat} (hW : Takes c At W k) (hM : Matches (F := F) c k)
    (hZ : Zeroes c At) {d : Desc} {bm : Ast} {as ms : List Ast} (hd : fine d = true) (hbm : definesBitmap bm = true)
    (hin : ∀ d ms, bm = .bitmap d ms → simpleL false ms = true → Only (F := F) false c At W k (visitL c ms) ms)
    (has : simpleL false as = true) (ho : ∀ o, Only o c At W k (visitL c as) as) (hm : Only true c At W k (visitL c ms) ms) :
    Only true c At W k (visit c (.assessment d bm as ms)) [.assessment d bm as ms] := by
  intro f f' x l ha hk hr h
  simp only [visit] at h
  obtain ⟨f1, f2, f3, f4, bits, f5, h1, h2, h3, h4, h5, h6, -, h7, h8⟩ := assessment_ok h
  by_cases hN : 0 < x.back.getD x.seen.length
  · have a1 : Follows true f1 { x with back := some (x.back.getD x.seen.length) } ∧ f1.r = f.r ∧ f1.cols = f.cols ∧
        f1.subsets = f.subsets := by
      have hb := ha.backref
      have hs : f.cols.length = x.seen.length := by
        have := congrArg List.length ha.seen
        simpa using this
      rcases newAssessment_ok h1 with ⟨e1, rfl⟩ | ⟨e1, rfl⟩
      · have hx : x.back = none := by
          cases hx : x.back with
          | none => rfl
          | some n =>
            rw [hx] at hb
            simp only at hb
            have := ha.pos n hx
            omega
        rw [hx] at hN ⊢
        exact ⟨{ ha with backref := (by simp [hs]), pos := (fun n h => by cases h; exact hN) }, rfl, rfl, rfl⟩
      · cases hx : x.back with
        | none =>
          rw [hx] at hb
          exact absurd hb e1
        | some n =>
          rw [hx] at hb
          exact ⟨{ ha with backref := hb, pos := (fun m h => by cases h; exact ha.pos n hx) }, rfl, rfl, rfl⟩
    obtain ⟨a1, er, ec, es⟩ := a1
    obtain ⟨zb, b1, b2, t, zs, i1, i2, x1, x2, rfl, q1, q2, q3, q4, q5, q6, q7, -⟩ :=
      chain_only hW hM hZ hd hbm hin has ho a1 (es.trans hk) (er ▸ hr) h2 h3 h4 h5
    have hcur := select_inv q6 h5
    have hne := q6.someCurrent _ hcur
    have hlen : 0 < bits.length := List.length_pos_iff.2 hne
    have hback := q6.backref
    cases hx2 : x2.back with
    | none =>
      rw [hx2] at hback
      simp only at hback
      omega
    | some n =>
      rw [hx2] at hback
      simp only at hback
      have hn : (f4.backref + 1).toNat = n := by omega
      rw [hn, zeros_selected] at h7 h8
      have a4 : Follows true { f4 with targets := selected bits n } { x2 with targets := selected bits n } :=
        { q6 with targets := rfl }
      obtain ⟨b3, t3, i3, x3, rfl, p1, p2, p3, p4, p5⟩ := hm _ f5 _ t a4 q7 q4 h7
      obtain ⟨l1, ⟨cols, rfl⟩, -⟩ := attachSources_ok _ _ _ _ _ h8
      have hl5 := items_length p3
      simp only at hl5
      obtain ⟨cols', e1, e2⟩ := attachSources_eq (List.range' f3.cols.length (f4.cols.length - f3.cols.length))
        (List.range' f4.cols.length (f5.cols.length - f4.cols.length)) (selected bits n) f5 l1
      rw [h8] at e1
      have ecols : cols = cols' := by
        have := (Prod.mk.inj e1).2
        exact congrArg State.cols this
      subst ecols
      refine ⟨zb ++ b1 ++ b2 ++ b3, t3, zs ++ i1 ++ i2 ++ i3, x3, by simp, ?_, p2, ?_, p4.cols cols rfl e2, p5⟩
      · have := Coded.assessment (ts := []) (bs := []) (is := []) hN q1 q2 q3 hcur hx2 hne (by omega) p1 (by
          simp only [List.length_range'] at l1
          omega) .nil
        simpa using this
      · show cols.map itemOf = _
        rw [e2, p3, ← ec]
        show f4.cols.map itemOf ++ _ = _
        rw [q5]
        simp
  · exfalso
    have hx : x.back = none := by
      cases hx : x.back with
      | none => rfl
      | some n =>
        have := ha.pos n hx
        rw [hx] at hN
        exact absurd this hN
    rw [hx] at hN
    have hs : f.cols.length = x.seen.length := by
      have := congrArg List.length ha.seen
      simpa using this
    have hb := ha.backref
    rw [hx] at hb
    simp only [Option.getD_none] at hN hb
    have e1 : f1 = f := by
      rcases newAssessment_ok h1 with ⟨e1, rfl⟩ | ⟨e1, rfl⟩
      · rw [show (f.cols.length : Int) - 1 = f.backref by omega]
      · rfl
    subst e1
    obtain ⟨zb, b1, b2, t, zs, i1, i2, x1, x2, -, -, -, -, -, -, q6, -, q8⟩ :=
      chain_only hW hM hZ hd hbm hin has ho ha hk hr h2 h3 h4 h5
    have hcur := select_inv q6 h5
    have hlen : 0 < bits.length := List.length_pos_iff.2 (q6.someCurrent _ hcur)
    rcases q8 with q8 | q8 <;> omega

mutual
theorem simple_only_of [GoFloat F] {W : Wire F τ} {k : Option Nat} (hW : Takes c At W k) (hM : Matches (F := F) c k)
    (hN : Plainly W k) :
    ∀ (o b : Bool) (m : Ast), (b = true → o = true ∧ Zeroes c At) → simple b m = true → Only o c At W k (visit c m) [m]
  | o, b, .element d np, hbo, h => by
    cases np with
    | false => exact element_only hW hM d (by simpa [simple] using h)
    | true =>
      simp only [visit, if_true]
      exact Only.nil.wrap fun h => .absent h
  | o, b, .e031021 d, hbo, h => significance_only hW hM d (by simpa [simple] using h)
  | o, b, .sequence d ms, hbo, h => by
    simp only [visit]
    exact (simpleL_only_of hW hM hN o b ms hbo (by simpa [simple] using h)).wrap fun h => .sequence (by simpa using h)
  | o, b, .dataNotPresent d ms, hbo, h => by
    simp only [visit]
    exact (simpleL_only_of hW hM hN o b ms hbo (by simpa [simple] using h)).wrap fun h => .notPresent (by simpa using h)
  | o, b, .fixedRepl d ms, hbo, h => by
    simp only [visit]
    exact ((simpleL_only_of hW hM hN o b ms hbo (by simpa [simple] using h)).repeatM _).wrap fun h => .fixed (by simpa using h)
  | o, b, .delayedRepl d [], hbo, h => by
    intro f f' x l ha hk hr h
    simp [visit, M.crash] at h
  | o, b, .delayedRepl d (m :: ms), hbo, h => by
    simp only [visit]
    simp only [simple, simpleL, Bool.and_eq_true] at h
    exact delayed_only hN (simple_only_of hW hM hN o b m hbo h.1.1) h.2 (simpleL_only_of hW hM hN o b ms hbo h.1.2) d
  | o, b, .nbitsOffset d, hbo, h => by
    simp only [visit]
    refine Only.change fun f f' x ha h => ?_
    cases h
    exact ⟨_, .op201 .nil, rfl, rfl, rfl, { ha with nbitsOffset := rfl }⟩
  | o, b, .scaleOffset d, hbo, h => by
    simp only [visit]
    refine Only.change fun f f' x ha h => ?_
    cases h
    exact ⟨_, .op202 .nil, rfl, rfl, rfl, { ha with scaleOffset := rfl }⟩
  | o, b, .modifyPacking d, hbo, h => by
    simp only [visit]
    refine Only.change fun f f' x ha h => ?_
    cases h
    refine ⟨_, .op207 .nil, rfl, rfl, rfl, { ha with nbitsIncrement := ?_, scaleIncrement := rfl, refvalFactor := rfl }⟩
    simp only
    split
    · rename_i h0; rw [h0]; decide
    · rfl
  | o, b, .setStringLength d, hbo, h => by
    simp only [visit]
    refine Only.change fun f f' x ha h => ?_
    cases h
    exact ⟨_, .op208 .nil, rfl, rfl, rfl, { ha with nbitsString := Int.mul_comm _ _ }⟩
  | o, b, .newRefval d ms, hbo, h => by
    simp only [visit]
    by_cases hy : d.id.Y = 255
    · rw [if_neg (by simp [hy])]
      exact Only.nil.wrap fun h => .op203end hy h
    · rw [if_pos hy]
      cases ms with
      | nil => simp [simple, hy] at h
      | cons m ms =>
        intro f f' x l ha hk hr h
        simp only [refvals] at h
        obtain ⟨_, g, _, h⟩ := M.bind_eq_ok.1 h
        cases hm : m.descriptor <;> simp [hm, M.crash] at h
  | o, b, .assocField d ms, hbo, h => by
    have ih := simpleL_only_of hW hM hN o b ms hbo (by simpa [simple] using h)
    simp only [visit]
    intro f f' x l ha hk hr h
    by_cases hy : d.id.Y = 0
    · rw [if_pos hy] at h
      obtain ⟨_, g, h1, h2⟩ := M.bind_eq_ok.1 h
      unfold popAssoc at h1
      by_cases he : f.assoc.isEmpty = true
      · rw [if_pos he] at h1
        cases h1
      · rw [if_neg he] at h1
        cases h1
        obtain ⟨b, t, is, y, q1, q2, q3⟩ := ih { f with assoc := f.assoc.dropLast } f' { x with assoc := x.assoc.dropLast } l
          { ha with assoc := (by simp [← ha.assoc]) } hk hr h2
        refine ⟨b, t, is, y, q1, .op204end hy ?_ (by simpa using q2), q3⟩
        intro hx
        apply he
        rw [← ha.assoc] at hx
        simpa using hx
    · rw [if_neg hy] at h
      obtain ⟨_, g, h1, h2⟩ := M.bind_eq_ok.1 h
      cases h1
      obtain ⟨b, t, is, y, q1, q2, q3⟩ := ih { f with assoc := f.assoc ++ [⟨d.id.Y, none⟩] } f'
        { x with assoc := x.assoc ++ [d.id.Y] } l { ha with assoc := (by simp [← ha.assoc]) } hk hr h2
      exact ⟨b, t, is, y, q1, .op204 hy (by simpa using q2), q3⟩
  | o, b, .insertString d, hbo, h => by
    simp only [visit]
    refine Only.build hW hM (fun td htd => by cases htd; simpa [simple] using h) fun {x b vs} hw => ?_
    have := Coded.op205 (x := x) (d := d) (ts := []) (bs := []) (is := []) (compatible := c.compatible) hw .nil
    rw [List.append_nil] at this
    exact this
  | o, b, .skipLocal d [], hbo, h => by
    intro f f' x l ha hk hr h
    simp [visit, M.crash] at h
  | o, b, .skipLocal d (m :: ms), hbo, h => by
    simp only [visit]
    refine Only.build hW hM (fun td htd => by
      simp only [simple, Bool.and_eq_true] at h
      simp only at htd
      rw [htd] at h
      simpa using h.2) fun {x b vs} hw => ?_
    have := Coded.op206 (x := x) (d := d) (m := m) (ms := ms) (ts := []) (bs := []) (is := []) (compatible := c.compatible) hw .nil
    rw [List.append_nil] at this
    exact this
  | o, b, .cancelBackRef d, hbo, h => by
    simp only [visit]
    refine Only.change fun f f' x ha h => ?_
    cases h
    exact ⟨_, .op235 .nil, rfl, rfl, rfl, { ha with
      backref := rfl, pos := (fun _ h => by cases h), current := (fun _ h => by cases h),
      reusable := (fun _ h => by cases h), noCurrent := (fun _ _ => rfl), noReusable := (fun _ _ => rfl),
      someCurrent := (fun _ h => by cases h), someReusable := (fun _ h => by cases h) }⟩
  | o, b, .cancelBitmap d, hbo, h => by
    simp only [visit]
    refine Only.change fun f f' x ha h => ?_
    cases h
    exact ⟨_, .op237end .nil, rfl, rfl, rfl, { ha with
      current := (fun _ h => by cases h), reusable := (fun _ h => by cases h), noCurrent := (fun _ _ => rfl)
      noReusable := (fun _ _ => rfl), someCurrent := (fun _ h => by cases h), someReusable := (fun _ h => by cases h) }⟩
  | o, b, .base _ _, hbo, h => by simp [simple] at h
  | o, b, .assessment d bm as ms, hbo, h => by
    simp only [simple, Bool.and_eq_true] at h
    obtain ⟨⟨⟨⟨h1, h2⟩, h3⟩, h4⟩, h5⟩ := h
    obtain ⟨rfl, hZ⟩ := hbo h1
    exact assessment_only hW hM hZ h2 h3
      (fun d ms e hs => by
        subst e
        exact simpleL_only_of hW hM hN false false ms (fun h => by cases h) hs) h4 (fun o => simpleL_only_of hW hM hN o false as (fun h => by cases h) h4)
      (simpleL_only_of hW hM hN true true ms (fun _ => ⟨rfl, hZ⟩) h5)
  | o, b, .marker d, hbo, h => by
    exact marker_only hW hM d (by simpa [simple] using h)
  | o, b, .bitmap _ _, hbo, h => by simp [simple] at h
theorem simpleL_only_of [GoFloat F] {W : Wire F τ} {k : Option Nat} (hW : Takes c At W k) (hM : Matches (F := F) c k)
    (hN : Plainly W k) :
    ∀ (o b : Bool) (ms : List Ast), (b = true → o = true ∧ Zeroes c At) → simpleL b ms = true → Only o c At W k (visitL c ms) ms
  | o, b, [], hbo, h => by
    simp only [visitL]
    exact Only.nil
  | o, b, m :: ms, hbo, h => by
    simp only [simpleL, Bool.and_eq_true] at h
    simp only [visitL]
    exact (simple_only_of hW hM hN o b m hbo h.1).seq (simpleL_only_of hW hM hN o b ms hbo h.2)
end

theorem simple_only [GoFloat F] {W : Wire F τ} {k : Option Nat} (hW : Takes c At W k) (hM : Matches (F := F) c k)
    (hN : Plainly W k) (hZ : Zeroes c At) (o b : Bool) (m : Ast) (hbo : b = true → o = true) (h : simple b m = true) :
    Only o c At W k (visit c m) [m] := simple_only_of hW hM hN o b m (fun e => ⟨hbo e, hZ⟩) h

theorem simpleL_only [GoFloat F] {W : Wire F τ} {k : Option Nat} (hW : Takes c At W k) (hM : Matches (F := F) c k)
    (hN : Plainly W k) (hZ : Zeroes c At) (o b : Bool) (ms : List Ast) (hbo : b = true → o = true) (h : simpleL b ms = true) :
    Only o c At W k (visitL c ms) ms := simpleL_only_of hW hM hN o b ms (fun e => ⟨hbo e, hZ⟩) h


/-! ## What was before the reader -/

theorem bitsOf_bytes : ∀ (n : Nat) (l : Bits), l.length = 8 * n → ∃ bs : List UInt8, l = bs.flatMap byteBits ∧ bs.length = n
  | 0, l, h => ⟨[], by simpa using h, rfl⟩
  | n + 1, l, h => by
    obtain ⟨bs, h1, h2⟩ := bitsOf_bytes n (l.drop 8) (by simp; omega)
    refine ⟨UInt8.ofNat (bitsVal (l.take 8)) :: bs, ?_, by simp [h2]⟩
    rw [List.flatMap_cons, ← h1, byteBits_eq, ofNat_toNat_take8]
    have : natBits 8 (bitsVal (l.take 8)) = l.take 8 := by
      have := natBits_bitsVal (l.take 8)
      rwa [show (l.take 8).length = 8 by simp; omega] at this
    rw [this, List.take_append_drop]

theorem readUint_inv [GoFloat F] {n : Int} {l : Bits} {p : Int} {v : Nat} {r' : Reader F}
    (h : Reader.readUint n (.bin ⟨l, p⟩) = (.ok v, r')) :
    ∃ b t, l = b ++ t ∧ b.length = n.toNat ∧ v = bitsVal b % two64 ∧ r' = .bin ⟨t, p + n⟩ := by
  by_cases hl : l.length < n.toNat
  · obtain ⟨s', hs⟩ := BitReader.readUint_short n l p hl
    rw [Reader.readUint, Reader.call_bin hs] at h
    cases h
  · have ht : (l.take n.toNat).length = n.toNat := by simp; omega
    have := Reader.readUint_bin (F := F) n (l.take n.toNat) (l.drop n.toNat) p ht
    rw [List.take_append_drop] at this
    rw [this] at h
    cases h
    exact ⟨_, _, (List.take_append_drop _ _).symm, ht, rfl, rfl⟩

theorem readInt_inv [GoFloat F] {n : Int} {l : Bits} {p : Int} {v : Int} {r' : Reader F}
    (h : Reader.readInt n (.bin ⟨l, p⟩) = (.ok v, r')) :
    ∃ s b t, l = s :: b ++ t ∧ b.length = (n - 1).toNat ∧
      v = (if s then toInt64 (-(toInt64 (bitsVal b % two64 : Nat))) else toInt64 (bitsVal b % two64 : Nat)) ∧
      r' = .bin ⟨t, p + n⟩ := by
  by_cases hl : l.length < n.toNat
  · obtain ⟨s', q, hs⟩ := BitReader.readInt_short n l p hl
    rw [Reader.readInt, Reader.call_bin hs] at h
    cases h
  · cases l with
    | nil =>
      have hs : BitReader.readInt n ⟨[], p⟩ = (.err .eof, ⟨[], p + 1⟩) := by
        unfold BitReader.readInt
        exact M.bind_err (BitReader.readBool_nil p)
      rw [Reader.readInt, Reader.call_bin hs] at h
      cases h
    | cons s l =>
      have hl' : (n - 1).toNat ≤ l.length := by simp at hl; omega
      have ht : (l.take (n - 1).toNat).length = (n - 1).toNat := by simp; omega
      have := Reader.readInt_bin (F := F) n s (l.take (n - 1).toNat) (l.drop (n - 1).toNat) p ht
      rw [List.cons_append, List.take_append_drop] at this
      rw [this] at h
      cases h
      exact ⟨s, _, _, by rw [List.cons_append, List.take_append_drop], ht, rfl, rfl⟩

theorem readBytes_inv {n : Int} {l : Bits} {p : Int} {v : List UInt8} {r' : Reader F}
    (h : Reader.readBytes n (.bin ⟨l, p⟩) = (.ok v, r')) :
    ∃ t, l = v.flatMap byteBits ++ t ∧ n = v.length ∧ r' = .bin ⟨t, p + n * 8⟩ := by
  by_cases hn : n < 0
  · have hs : BitReader.readBytes n ⟨l, p⟩ = (.panic "makeslice: len out of range", ⟨l, p + n * 8⟩) := by
      unfold BitReader.readBytes
      rw [M.bind_ok (m := BitReader.advance _) (a := ()) (s' := ⟨l, p + n * 8⟩) rfl, if_pos hn]
      rfl
    rw [Reader.readBytes, Reader.call_bin hs] at h
    cases h
  · by_cases hl : (l.length : Int) < n * 8
    · obtain ⟨s', hs⟩ := BitReader.readBytes_short n l p hl
      rw [Reader.readBytes, Reader.call_bin hs] at h
      cases h
    · obtain ⟨bs, h1, h2⟩ := bitsOf_bytes n.toNat (l.take (8 * n.toNat)) (by simp; omega)
      have := Reader.readBytes_bin (F := F) bs (l.drop (8 * n.toNat)) p
      rw [← h1, List.take_append_drop, h2, show ((n.toNat : Nat) : Int) = n by omega] at this
      rw [this] at h
      cases h
      exact ⟨l.drop (8 * n.toNat), by rw [← h1, List.take_append_drop], by omega, rfl⟩

theorem readByte_suffix (s : Bits) : (readByte s).2 <:+ s := by
  unfold readByte
  split
  · exact ⟨[_, _, _, _, _, _, _, _], rfl⟩
  · exact List.suffix_refl _

theorem readBit_suffix (s : Bits) : (readBit s).2 <:+ s := by
  unfold readBit
  split
  · exact List.suffix_refl _
  · exact List.suffix_cons _ _

/-- What is left is an end of what was there. -/
theorem suffix_bind {α β : Type} {m : M Bits α} {k : α → M Bits β} (h1 : ∀ s, (m s).2 <:+ s) (h2 : ∀ a s, (k a s).2 <:+ s) (s : Bits) :
    ((m >>= k) s).2 <:+ s := by
  rw [M.bind_apply]
  have := h1 s
  revert this
  rcases m s with ⟨o, s'⟩
  intro this
  cases o with
  | ok a => exact (h2 a s').trans this
  | err e => exact this
  | panic w => exact this
  | diverge => exact this

theorem readBits_suffix (n : Int) (s : Bits) : (readBits n s).2 <:+ s := by
  have h1 : ∀ k u s, (readBitsByteLoop k u s).2 <:+ s := by
    intro k
    induction k with
    | zero => exact fun u s => List.suffix_refl _
    | succ k ih => exact fun u s => suffix_bind readByte_suffix (fun a => ih _) s
  have h2 : ∀ k u s, (readBitsBitLoop k u s).2 <:+ s := by
    intro k
    induction k with
    | zero => exact fun u s => List.suffix_refl _
    | succ k ih => exact fun u s => suffix_bind readBit_suffix (fun a => ih _) s
  exact suffix_bind (h1 _ _) (fun a => h2 _ _) s

theorem readBinaryLoop_suffix : ∀ (k n : Nat) (acc : List UInt8) (r : BitReader),
    (BitReader.readBinaryLoop k n acc r).2.src <:+ r.src
  | 0, _, _, r => List.suffix_refl _
  | k + 1, n, acc, r => by
    unfold BitReader.readBinaryLoop
    have h := readBits_suffix (if n < 8 then n else 8) r.src
    unfold BitReader.onSrc
    revert h
    rcases readBits (if n < 8 then n else 8) r.src with ⟨o, s⟩
    intro h
    cases o with
    | ok a => exact (readBinaryLoop_suffix k _ _ _).trans h
    | err e => exact h
    | panic w => exact h
    | diverge => exact h

theorem readBinary_inv {n : Int} {l : Bits} {p : Int} {v : Option Binary} {r' : Reader F}
    (h : Reader.readBinary n (.bin ⟨l, p⟩) = (.ok v, r')) :
    ∃ b t, l = b ++ t ∧ r' = .bin ⟨t, p + n⟩ ∧ (v ≠ none → b.length = n.toNat ∧ v = some ⟨packBits b, n⟩) := by
  by_cases hl : l.length < n.toNat
  · have hsuf : (BitReader.readBinary n ⟨l, p⟩).2.src <:+ l := by
      unfold BitReader.readBinary
      rw [M.bind_ok (m := BitReader.advance n) (a := ()) (s' := ⟨l, p + n⟩) rfl, M.bind_apply]
      have := readBinaryLoop_suffix ((n.toNat + 7) / 8) n.toNat [] ⟨l, p + n⟩
      revert this
      rcases BitReader.readBinaryLoop ((n.toNat + 7) / 8) n.toNat [] ⟨l, p + n⟩ with ⟨o, r1⟩
      intro this
      cases o with
      | ok a => cases a <;> exact this
      | err e => exact this
      | panic w => exact this
      | diverge => exact this
    obtain ⟨s', hs⟩ := BitReader.readBinary_short n l p hl
    rw [hs] at hsuf
    rw [Reader.readBinary, Reader.call_bin hs] at h
    cases h
    obtain ⟨b, hb⟩ := hsuf
    exact ⟨b, s', hb.symm, rfl, fun h => absurd rfl h⟩
  · have ht : (l.take n.toNat).length = n.toNat := by simp; omega
    have := Reader.readBinary_bin (F := F) n (l.take n.toNat) (l.drop n.toNat) p ht
    rw [List.take_append_drop] at this
    rw [this] at h
    cases h
    exact ⟨_, _, (List.take_append_drop _ _).symm, rfl, fun _ => ⟨ht, rfl⟩⟩

/-! ## Uncompressed data -/

/-- Some bits before the reader. -/
def AtAny (l : List Bool) (r : Reader F) : Prop := ∃ p, r = .bin ⟨l, p⟩

/-- The bits `b` are taken for the value. -/
def Taken [GoFloat F] (info : PackingInfo F) (b : List Bool) (vs : List (Val F)) : Prop :=
  ∃ v p p' t, vs = [v] ∧ uncompressUnpack info (.bin ⟨b ++ t, p⟩) = (.ok v, .bin ⟨t, p'⟩)

theorem uncompress_suffix [GoFloat F] {info : PackingInfo F} {l : Bits} {p : Int} {v : Val F} {r : Reader F}
    (h : uncompressUnpack info (.bin ⟨l, p⟩) = (.ok v, r)) : ∃ b t p', l = b ++ t ∧ r = .bin ⟨t, p'⟩ := by
  unfold uncompressUnpack at h
  have hu : ∀ {n : Int} {k : Nat → Outcome (Val F)},
      (do let v ← Reader.readUint n; M.lift (k v) : M (Reader F) (Val F)) (.bin ⟨l, p⟩) = (.ok v, r) →
      ∃ b t p', l = b ++ t ∧ r = .bin ⟨t, p'⟩ := by
    intro n k h
    obtain ⟨a, r1, h1, h2⟩ := M.bind_eq_ok.1 h
    obtain ⟨b, t, hb, -, -, rfl⟩ := readUint_inv h1
    obtain ⟨_, rfl⟩ := Prod.mk.inj h2
    exact ⟨b, t, _, hb, rfl⟩
  cases hunit : info.unit with
  | string =>
    simp only [hunit] at h
    obtain ⟨a, r1, h1, h2⟩ := M.bind_eq_ok.1 h
    obtain ⟨t, hb, -, rfl⟩ := readBytes_inv h1
    cases h2
    exact ⟨_, t, _, hb, rfl⟩
  | code =>
    simp only [hunit] at h
    obtain ⟨a, r1, h1, h2⟩ := M.bind_eq_ok.1 h
    obtain ⟨s, b, t, hb, -, -, rfl⟩ := readInt_inv h1
    cases h2
    exact ⟨_, t, _, hb, rfl⟩
  | binary =>
    simp only [hunit] at h
    obtain ⟨a, r1, h1, h2⟩ := M.bind_eq_ok.1 h
    obtain ⟨b, t, hb, rfl, -⟩ := readBinary_inv h1
    cases h2
    exact ⟨_, t, _, hb, rfl⟩
  | numeric =>
    simp only [hunit] at h
    exact hu h
  | nonnegCode | flag =>
    simp only [hunit] at h
    split at h
    · cases h
      exact ⟨[], l, p, rfl, rfl⟩
    · exact hu h

theorem takes_uncompress [GoFloat F] (hu : c.unpacker = .uncompress) : Takes (F := F) c AtAny Taken none := by
  rintro info l r r' v vs ⟨p, rfl⟩ h hf
  rw [hu] at h
  simp only [Unpacker.unpack] at h
  obtain ⟨a, r1, h1, h2⟩ := M.bind_eq_ok.1 h
  cases h2
  obtain ⟨b, t, p', rfl, rfl⟩ := uncompress_suffix h1
  exact ⟨b, t, rfl, ⟨a, p, p', t, hf, h1⟩, p', rfl⟩

theorem matches_uncompress [GoFloat F] (hu : c.unpacker = .uncompress) : Matches (F := F) c none := by
  intro info r r' v h
  rw [hu] at h
  simp only [Unpacker.unpack] at h
  obtain ⟨a, r1, h1, h2⟩ := M.bind_eq_ok.1 h
  cases h2
  trivial

theorem zeroes_uncompress [GoFloat F] (hu : c.unpacker = .uncompress) : Zeroes (F := F) c AtAny := by
  rintro l r ⟨p, rfl⟩ e r' h
  rw [hu] at h
  simp only [Unpacker.unpack] at h
  have h1 : uncompressUnpack (F := F) (Vis.plainInfo .nonnegCode 0) (.bin ⟨l, p⟩) = (.ok (.uint 0), .bin ⟨l, p⟩) := by
    simp [uncompressUnpack, Vis.plainInfo]
  rw [M.bind_ok h1] at h
  cases h

theorem plainly_taken [GoFloat F] : Plainly (F := F) Taken none := by
  rintro - info b vs ⟨v, p, p', t, h, -⟩
  exact ⟨v, h⟩

/-- What is taken for a proper value is the value. -/
theorem taken_single [GoFloat F] [LawfulGoFloat F] {info : PackingInfo F} {b : List Bool} {vs : List (Val F)} (h : Taken info b vs)
    (hp : ∀ v ∈ vs, Proper info v) : Single info b vs := by
  obtain ⟨v, p, p', t, rfl, h⟩ := h
  have hp := hp v List.mem_cons_self
  unfold Proper at hp
  have hplain : Plain info.unit → 0 ≤ info.nbits ∧ info.nbits ≤ 64 → Single info b [v] := by
    intro hu hn
    have hlen : info.nbits.toNat ≤ (b ++ t).length := by
      apply Classical.byContradiction
      intro hlt
      obtain ⟨s', hs⟩ := BitReader.readUint_short info.nbits (b ++ t) p (by omega)
      have hs : Reader.readUint info.nbits (.bin ⟨b ++ t, p⟩) = (.err .eof, (.bin ⟨s', p + info.nbits⟩ : Reader F)) := by
        rw [Reader.readUint, Reader.call_bin hs]
      unfold uncompressUnpack at h
      rcases hu with hu | hu | hu <;> simp only [hu] at h
      · rw [M.bind_err hs] at h
        cases h
      all_goals
        rw [if_neg (by omega), M.bind_err hs] at h
        cases h
    have ht : ((b ++ t).take info.nbits.toNat).length = info.nbits.toNat := by rw [List.length_take]; omega
    have hv : bitsVal ((b ++ t).take info.nbits.toNat) < 2 ^ info.nbits.toNat := by
      have := bitsVal_lt ((b ++ t).take info.nbits.toNat)
      rwa [ht] at this
    have hnb : natBits info.nbits.toNat (bitsVal ((b ++ t).take info.nbits.toNat)) = (b ++ t).take info.nbits.toNat := by
      have := natBits_bitsVal ((b ++ t).take info.nbits.toNat)
      rwa [ht] at this
    have key := C42_numeric_partial info info.nbits.toNat _ ((b ++ t).drop info.nbits.toNat) p hu (by omega) (by omega) hv
    rw [hnb, List.take_append_drop, h] at key
    injection key with k1 k2
    injection k1 with k1
    injection k2 with k2
    injection k2 with k2 k3
    have hb : b = natBits info.nbits.toNat (bitsVal ((b ++ t).take info.nbits.toNat)) := by
      rw [hnb]
      have := List.take_append_drop info.nbits.toNat (b ++ t)
      rw [← k2] at this
      exact (List.append_cancel_right this).symm
    rw [k1]
    conv => lhs
    have := Single.number (info := info) hu (n := info.nbits.toNat) (by omega) (by omega) hv
    rw [← hb] at this
    exact this
  cases hunit : info.unit with
  | string =>
    simp only [hunit] at hp
    obtain ⟨n, hn⟩ := hp
    unfold uncompressUnpack at h
    simp only [hunit] at h
    obtain ⟨a, r1, h1, h2⟩ := M.bind_eq_ok.1 h
    obtain ⟨t', hb, hl, rfl⟩ := readBytes_inv h1
    cases h2
    cases List.append_cancel_right hb
    refine .text hunit ?_
    rw [hn, mul_tdiv_eight] at hl
    rw [hn, hl]
  | code =>
    simp only [hunit] at hp
    have h' := h
    unfold uncompressUnpack at h
    simp only [hunit] at h
    obtain ⟨a, r1, h1, h2⟩ := M.bind_eq_ok.1 h
    obtain ⟨s, b', t', hb, hl, -, rfl⟩ := readInt_inv h1
    cases h2
    cases List.append_cancel_right hb
    have hv := bitsVal_lt b'
    have hnb := natBits_bitsVal b'
    have key := C42_signed info b'.length s (bitsVal b') t p hunit (by omega) (by omega) hv
    rw [hnb, h'] at key
    injection key with k1 k2
    injection k1 with k1
    rw [k1]
    have := Single.signed (info := info) (n := b'.length) (mag := bitsVal b') (neg := s) hunit (by omega) (by omega) hv
    rw [hnb] at this
    exact this
  | binary =>
    simp only [hunit] at hp
    unfold uncompressUnpack at h
    simp only [hunit] at h
    obtain ⟨a, r1, h1, h2⟩ := M.bind_eq_ok.1 h
    obtain ⟨b', t', hb, rfl, hx⟩ := readBinary_inv h1
    cases h2
    cases List.append_cancel_right hb
    obtain ⟨h3, rfl⟩ := hx (fun h => hp.2 (by rw [h]))
    have := Single.skipped (info := info) (l := b) hunit (by omega) (packed_packBits b)
    rw [show info.nbits = (b.length : Int) by omega]
    exact this
  | numeric =>
    simp only [hunit] at hp
    exact hplain (.inl hunit) hp
  | nonnegCode =>
    simp only [hunit] at hp
    exact hplain (.inr (.inl hunit)) hp
  | flag =>
    simp only [hunit] at hp
    exact hplain (.inr (.inr hunit)) hp

/-- The same symbols by other rules. -/
theorem Coded.mono [GoFloat F] {W W' : Wire F τ} {compatible : Bool} {x y : Ctx} {ts : List Ast} {bits : List τ}
    {is : List (Datum F)} (hc : Coded W compatible x ts bits is y)
    (h : ∀ i ∈ is, ∀ b, W i.info b i.vals → W' i.info b i.vals) : Coded W' compatible x ts bits is y := by
  have hassoc : ∀ {d : Desc} {ws : List Int} {b : List τ} {is : List (Datum F)}, Assocs W d ws b is →
      (∀ i ∈ is, ∀ b, W i.info b i.vals → W' i.info b i.vals) → Assocs W' d ws b is := by
    intro d ws b is ha
    induction ha with
    | nil => exact fun _ => .nil
    | cons hw _ ih => exact fun h => .cons (h _ List.mem_cons_self _ hw) (ih fun i hi => h i (List.mem_cons_of_mem _ hi))
  have hzero : ∀ {d : Desc} {b : List τ} {is : List (Datum F)}, Zero W compatible d b is →
      (∀ i ∈ is, ∀ b, W i.info b i.vals → W' i.info b i.vals) → Zero W' compatible d b is := by
    intro d b is ha h
    cases ha with
    | off hc => exact .off hc
    | on hc hw => exact .on hc (h _ List.mem_cons_self _ hw)
  induction hc with
  | nil => exact .nil
  | element he ha hw _ ih =>
    simp only [List.mem_append, or_imp, forall_and] at h
    exact .element he (hassoc ha h.1.1) (h.1.2 _ List.mem_cons_self _ hw) (ih h.2)
  | significance he hw _ ih => exact .significance he (h _ List.mem_cons_self _ hw) (ih fun i hi => h i (List.mem_cons_of_mem _ hi))
  | op205 hw _ ih => exact .op205 (h _ List.mem_cons_self _ hw) (ih fun i hi => h i (List.mem_cons_of_mem _ hi))
  | op206 hw _ ih => exact .op206 (h _ List.mem_cons_self _ hw) (ih fun i hi => h i (List.mem_cons_of_mem _ hi))
  | marker h1 h2 h3 h4 hw _ ih =>
    exact .marker h1 h2 h3 h4 (h _ List.mem_cons_self _ hw) (ih fun i hi => h i (List.mem_cons_of_mem _ hi))
  | delayed _ h1 h2 h3 h4 _ ih1 ih2 =>
    simp only [List.mem_append, or_imp, forall_and] at h
    exact .delayed (ih1 h.1) h1 h2 h3 h4 (ih2 h.2)
  | bitmap h1 hm hz _ h2 _ ih1 ih2 =>
    simp only [List.mem_append, or_imp, forall_and] at h
    exact .bitmap h1 hm (hzero hz h.1.1) (ih1 h.1.2) h2 (ih2 h.2)
  | recall h1 hz _ ih =>
    simp only [List.mem_append, or_imp, forall_and] at h
    exact .recall h1 (hzero hz h.1) (ih h.2)
  | assessment h1 hz _ _ h2 h3 h4 h5 _ h6 _ ih1 ih2 ih3 ih4 =>
    simp only [List.mem_append, or_imp, forall_and] at h
    exact .assessment h1 (hzero hz h.1.1.1.1) (ih1 h.1.1.1.2) (ih2 h.1.1.2) h2 h3 h4 h5 (ih3 h.1.2) h6 (ih4 h.2)
  | absent _ ih => exact .absent (ih h)
  | sequence _ ih => exact .sequence (ih h)
  | notPresent _ ih => exact .notPresent (ih h)
  | fixed _ ih => exact .fixed (ih h)
  | op201 _ ih => exact .op201 (ih h)
  | op202 _ ih => exact .op202 (ih h)
  | op207 _ ih => exact .op207 (ih h)
  | op208 _ ih => exact .op208 (ih h)
  | op203end hy _ ih => exact .op203end hy (ih h)
  | op204 hy _ ih => exact .op204 hy (ih h)
  | op204end hy hn _ ih => exact .op204end hy hn (ih h)
  | op235 _ ih => exact .op235 (ih h)
  | op237end _ ih => exact .op237end (ih h)

/-- What holds of everything written on the wire holds of all data. -/
theorem Coded.every [GoFloat F] {W : Wire F τ} {Q : PackingInfo F → List (Val F) → Prop}
    (hq : ∀ info b vs, W info b vs → Q info vs) {compatible : Bool} {x y : Ctx} {ts : List Ast} {bits : List τ}
    {is : List (Datum F)} (hc : Coded W compatible x ts bits is y) : ∀ i ∈ is, Q i.info i.vals := by
  have hassoc : ∀ {d : Desc} {ws : List Int} {b : List τ} {is : List (Datum F)}, Assocs W d ws b is → ∀ i ∈ is, Q i.info i.vals := by
    intro d ws b is ha
    induction ha with
    | nil => simp
    | cons hw _ ih => exact List.forall_mem_cons.2 ⟨hq _ _ _ hw, ih⟩
  have hzero : ∀ {d : Desc} {b : List τ} {is : List (Datum F)}, Zero W compatible d b is → ∀ i ∈ is, Q i.info i.vals := by
    intro d b is ha
    cases ha with
    | off hc => simp
    | on hc hw => exact List.forall_mem_cons.2 ⟨hq _ _ _ hw, by simp⟩
  induction hc with
  | nil => simp
  | element he ha hw _ ih =>
    exact List.forall_mem_append.2 ⟨List.forall_mem_append.2 ⟨hassoc ha, List.forall_mem_cons.2 ⟨hq _ _ _ hw, by simp⟩⟩, ih⟩
  | significance he hw _ ih => exact List.forall_mem_cons.2 ⟨hq _ _ _ hw, ih⟩
  | op205 hw _ ih => exact List.forall_mem_cons.2 ⟨hq _ _ _ hw, ih⟩
  | op206 hw _ ih => exact List.forall_mem_cons.2 ⟨hq _ _ _ hw, ih⟩
  | marker h1 h2 h3 h4 hw _ ih => exact List.forall_mem_cons.2 ⟨hq _ _ _ hw, ih⟩
  | delayed _ h1 h2 h3 h4 _ ih1 ih2 => exact List.forall_mem_append.2 ⟨ih1, ih2⟩
  | bitmap h1 _ hz _ h2 _ ih1 ih2 => exact List.forall_mem_append.2 ⟨List.forall_mem_append.2 ⟨hzero hz, ih1⟩, ih2⟩
  | recall h1 hz _ ih => exact List.forall_mem_append.2 ⟨hzero hz, ih⟩
  | assessment h1 hz _ _ h2 h3 h4 h5 _ h6 _ ih1 ih2 ih3 ih4 =>
    exact List.forall_mem_append.2 ⟨List.forall_mem_append.2 ⟨List.forall_mem_append.2 ⟨List.forall_mem_append.2 ⟨hzero hz, ih1⟩, ih2⟩,
      ih3⟩, ih4⟩
  | absent _ ih | sequence _ ih | notPresent _ ih | fixed _ ih | op201 _ ih | op202 _ ih | op207 _ ih | op208 _ ih | op203end _ _ ih
  | op204 _ _ ih | op204end _ _ _ ih | op235 _ ih | op237end _ ih => exact ih

/-- Templates of simple nodes are no roots. -/
theorem root_only [GoFloat F] (hc : CfgOk c) {W : Wire F τ} {k : Option Nat} (hk : k = if c.compressed = true ∧ c.inputType = .binary
    then some c.nsubsets.toNat else none) (h0 : k ≠ some 0) {ns : List Ast} (hns : noBaseL ns = true)
    (ho : Only o c At W k (visitL c ns) ns) (d : Desc) {s s' : Vis F}
    {l : List τ} (hr : At l s.r) (h : Vis.visit c (.base d ns) s = (.ok (), s')) :
    ∃ b t is y ρ f', l = b ++ t ∧ Coded W c.compatible {} ns b is y ∧ At t s'.r ∧ s'.stack = [] ∧
      Represents c ρ s' f' ∧ f'.cols.map itemOf = is ∧ f'.subsets = k := by
  rcases root_visit hc hns d s s' _ h (by simp) with ⟨ρ, f', e, rep, st, -⟩ | ⟨h1, -⟩
  · obtain ⟨b, t, is, y, rfl, q1, q2, q3, q4, q5⟩ := ho (fresh c s.r) f' {} l
      { nbitsOffset := rfl, scaleOffset := rfl, nbitsIncrement := rfl, scaleIncrement := rfl, refvalFactor := rfl,
        nbitsString := rfl, assoc := rfl, seen := rfl, backref := rfl, pos := (fun _ h => by cases h), targets := rfl,
        current := (fun _ h => by cases h), reusable := (fun _ h => by cases h),
        fine := (fun _ h => by cases h), noCurrent := (fun _ _ => rfl), noReusable := (fun _ _ => rfl),
        someCurrent := (fun _ h => by cases h), someReusable := (fun _ h => by cases h),
        subsets := (by
          show (if c.compressed = true ∧ c.inputType = .binary then some c.nsubsets.toNat else none) ≠ some 0
          rw [← hk]
          exact h0) } hk.symm hr e
    refine ⟨b, t, is, y, ρ, f', rfl, q1, ?_, st, rep, by simpa [fresh] using q3, q5⟩
    rw [rep.r]
    exact q2
  · cases h1

end EncodeSpec
end Gobufr
