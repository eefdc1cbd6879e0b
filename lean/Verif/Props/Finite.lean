import Verif.Props.Lossless
import Verif.Props.Marshal
import Verif.Proofs.Finite

/-!
# C122: the numbers of a decoded message are finite, so that it can be written as JSON
-/

namespace Gobufr
open Spec Layout UnpackSpec AccuracySpec EncodeSpec

attribute [local irreducible] pow2

/-- `json.Marshal` accepts a float64 iff it is neither infinite nor a NaN. -/
def isFinite : Double → Bool
  | .fin .. => true
  | _ => false

theorem isFinite_iff (d : Double) : isFinite d = true ↔ AccuracySpec.Finite d := by
  cases d with
  | nan => exact ⟨nofun, by rintro ⟨_, _, _, _, h⟩; cases h⟩
  | inf _ => exact ⟨nofun, by rintro ⟨_, _, _, _, h⟩; cases h⟩
  | fin n m e h => exact ⟨fun _ => ⟨n, m, e, h, rfl⟩, fun _ => rfl⟩

/-- **C122**, in full: every message that is decoded can be written as JSON. -/
def C122_statement : Prop :=
  ∀ (c : FacCfg) (s s' : Fac Double) (m : Message Double), Runtime.run c s = (.ok m, s') → ∃ j, Marshal.message isFinite m = .ok j

/-- C122 for one element: its number is finite. -/
theorem C122_element (info : PackingInfo Double) (h : Modest info) (raw : Nat) (hr : raw < 2 ^ 64) :
    AccuracySpec.Finite (scaled info raw) := scaled_finite h hr

/-- C122: elements of table B whose scale is -100 or more are modest, whatever the operators. -/
theorem C122_packing (o : Flat.Operands) (e : Bentry) (hs : -100 ≤ e.scale) (hr : e.refval.natAbs ≤ 2 ^ 63) (h2 : 0 ≤ o.y202)
    (h7 : 0 ≤ o.y207) (h7' : o.y207 ≤ 255) (hu : e.unit = .numeric) : Modest (o.packing e) := by
  refine ⟨e.refval, o.y207, hr, h7, h7', ?_, ?_⟩
  · unfold Flat.Operands.packing
    rw [hu]
  · unfold Flat.Operands.packing
    rw [hu]
    dsimp only
    split <;> omega

/-! ## All values of a message -/

/-- The value is no number, or a finite one. -/
def Tame (v : Val Double) : Prop := ∀ x, v = .float x → AccuracySpec.Finite x

theorem tame_of {v : Val Double} (h : ∀ x, v ≠ .float x) : Tame v := fun x e => absurd e (h x)

theorem tame_value {info : PackingInfo Double} (h : info.unit = .numeric → Modest info) {n raw : Nat} (hr : raw < 2 ^ 64) :
    Tame (value info n raw) := by
  intro x hx
  unfold value at hx
  split at hx
  · cases hx
  · unfold present at hx
    split at hx
    · rename_i hu
      cases hx
      exact scaled_finite (h hu) hr
    · cases hx

theorem tame_present {info : PackingInfo Double} (h : info.unit = .numeric → Modest info) {raw : Nat} (hr : raw < 2 ^ 64) :
    Tame (present info raw) := by
  intro x hx
  unfold present at hx
  split at hx
  · rename_i hu
    cases hx
    exact scaled_finite (h hu) hr
  · cases hx

theorem single_tame {info : PackingInfo Double} (hm : info.unit = .numeric → Modest info) {b : List Bool} {vs : List (Val Double)}
    (h : Single info b vs) : ∀ v ∈ vs, Tame v := by
  cases h with
  | number _ _ h64 hr =>
    intro v hv
    rw [List.mem_singleton.1 hv]
    exact tame_value hm (lt_of_lt_of_le hr (Nat.pow_le_pow_right (by decide) h64))
  | text => intro v hv; rw [List.mem_singleton.1 hv]; exact tame_of (by simp)
  | signed => intro v hv; rw [List.mem_singleton.1 hv]; exact tame_of (by simp)
  | skipped => intro v hv; rw [List.mem_singleton.1 hv]; exact tame_of (by simp)

theorem lenient_tame {k : Nat} {info : PackingInfo Double} (hm : info.unit = .numeric → Modest info) {b : List Bool}
    {vs : List (Val Double)} (h : Lenient k info b vs) : ∀ v ∈ vs, Tame v := by
  cases h with
  | same _ _ _ h64 hr =>
    intro v hv
    rw [List.eq_of_mem_replicate hv]
    exact tame_value hm (lt_of_lt_of_le hr (Nat.pow_le_pow_right (by decide) h64))
  | increments _ _ _ h64 hr _ _ _ _ _ =>
    intro v hv
    obtain ⟨d, -, rfl⟩ := List.mem_map.1 hv
    split
    · exact tame_of (by simp)
    · unfold sumValue
      split
      · exact tame_value hm (Nat.mod_lt _ (by decide))
      · exact tame_present hm (Nat.mod_lt _ (by decide))
  | texts =>
    intro v hv
    obtain ⟨_, -, rfl⟩ := List.mem_map.1 hv
    exact tame_of (by simp)
  | _ => intro v hv; rw [List.eq_of_mem_replicate hv]; exact tame_of (by simp)

theorem readValue_tame {t : DataType} (ht : t ≠ DataType.FLOAT) {n : Int} {r r' : Reader Double} {v : Val Double}
    (h : Fac.readValue t n r = (.ok v, r')) : Tame v := by
  unfold Fac.readValue at h
  repeat' split at h
  all_goals first
    | (obtain ⟨_, _, -, h⟩ := M.bind_eq_ok.1 h; cases h; exact tame_of (by simp))
    | cases h

theorem fields_tame {r r' : Reader Double} {ds : List FieldDecl} {fs : List (Field Double)} (h : ReadFields r ds fs r')
    (hd : ∀ d ∈ ds, d.dataType ≠ DataType.FLOAT) : ∀ v ∈ fs.flatMap fieldItems, Tame v := by
  induction h with
  | nil => simp
  | cons h1 _ ih =>
    intro v hv
    rw [List.flatMap_cons, List.mem_append] at hv
    rcases hv with hv | hv
    · rw [List.mem_singleton.1 (show v ∈ [_] from hv)]
      exact readValue_tame (hd _ (by simp)) h1
    · exact ih (fun d h => hd d (by simp [h])) v hv

theorem pads_tame {L : Nat} {b : Int} {r r' : Reader Double} {pad : List (Field Double)} {n : Int} (h : Pads L b r pad n r') :
    ∀ v ∈ pad.flatMap fieldItems, Tame v := by
  rcases h with ⟨-, rfl, -⟩ | ⟨-, -, x, rfl, -⟩
  · simp
  · simp [fieldItems, Tame]

/-- Only the payload of a message holds numbers with a fraction. -/
theorem trace_tame {c : FacCfg} {e : Nat} {r : Reader Double} (t : Trace c (editionDecls e) r)
    (h : ∀ sub ∈ t.p.subsets, ∀ y ∈ sub.cells, Tame y.v) : ∀ v ∈ items t.message, Tame v := by
  have h2 : ∀ v ∈ ((if t.present then [t.sec2] else []).flatMap fun s => s.fields).flatMap fieldItems, Tame v := by
    have := t.h2
    cases hb : t.present with
    | true =>
      rw [hb] at this
      have key := fields_tame this (by simp [fields2, lengthDecl]; decide)
      intro v hv
      exact key v (by simpa [Trace.sec2] using hv)
    | false => simp
  have h0 := fields_tame t.h0 (by decide)
  have h1 := fields_tame t.h1 (by unfold editionDecls; split <;> decide)
  have h3 := fields_tame t.h3 (by decide)
  have h4 := fields_tame t.h4 (by decide)
  have h5 := fields_tame t.h5 (by decide)
  have hT : ∀ v ∈ fieldItems (templateField t.ids : Field Double), Tame v := by
    intro v hv
    obtain ⟨_, -, rfl⟩ := List.mem_map.1 (show v ∈ List.map _ _ from hv)
    exact tame_of (by simp)
  have hP : ∀ v ∈ fieldItems (payloadField t.p (t.r4''.pos - t.r4'.pos)), Tame v := by
    intro v hv
    obtain ⟨s, hs, hv⟩ := List.mem_flatMap.1 (show v ∈ List.flatMap _ _ from hv)
    obtain ⟨y, hy, rfl⟩ := List.mem_map.1 hv
    exact h s hs y hy
  intro v hv
  have : items t.message = (t.message.sections.flatMap fun s => s.fields).flatMap fieldItems := by
    unfold items
    rw [List.flatMap_assoc]
  rw [this, t.fields_eq] at hv
  simp only [List.flatMap_append, List.mem_append] at hv
  rcases hv with (((((((hv | hv) | hv) | hv) | hv) | hv) | (hv | hv)) | hv) | (hv | hv)
  · exact h0 v hv
  · exact h1 v hv
  · exact pads_tame t.p1 v hv
  · exact h2 v hv
  · exact h3 v hv
  · exact hT v (by simpa using! hv)
  · exact pads_tame t.p3 v hv
  · exact h4 v hv
  · exact hP v (by simpa using! hv)
  · exact pads_tame t.p4 v hv
  · exact h5 v hv

/-- A message whose payload has finite numbers can be written as JSON. -/
theorem marshal_tame {c : FacCfg} {s s' : Fac Double} {m : Message Double} {input : List UInt8} {q : Int}
    (hs : s.r = .bin ⟨BitReader.bitsOfBytes input, 8 * q⟩) (h : Runtime.run c s = (.ok m, s')) {p : Payload Double}
    (hp : payloadOf m = some p) (hf : ∀ sub ∈ p.subsets, ∀ y ∈ sub.cells, Tame y.v) : ∃ j, Marshal.message isFinite m = .ok j := by
  obtain ⟨_, _, _, -, -, -, -, t, rfl, -⟩ := run_trace_at hs h
  rw [t.payloadOf_eq] at hp
  cases hp
  exact (C90_exists _ _).1.2 fun x hx => (isFinite_iff x).2 (trace_tame t hf _ hx x rfl)

theorem reported_mem {sub : Subset Double} {y : Cell Double} (hy : y ∈ sub.cells) :
    ∃ o ∈ reported sub, ∀ d info v, o = some (d, info, v) → y.v = v := by
  refine ⟨_, List.mem_map_of_mem hy, fun d info v e => ?_⟩
  split at e
  · injection e with e
    exact (Prod.mk.inj (Prod.mk.inj e).2).2
  · cases e

theorem written_tame {is : List (Datum Double)} {j : Nat} (h : ∀ i ∈ is, ∀ v ∈ i.vals, Tame v) {sub : Subset Double}
    (hr : reported sub = written is j) : ∀ y ∈ sub.cells, Tame y.v := by
  intro y hy
  obtain ⟨o, ho, k⟩ := reported_mem hy
  rw [hr] at ho
  obtain ⟨i, hi, e⟩ := List.mem_map.1 ho
  have hv := k _ _ _ e.symm
  rw [hv, List.getD_eq_getElem?_getD]
  cases hj : i.vals[j]? with
  | none => exact tame_of (by simp)
  | some w => exact h i hi _ (List.mem_of_getElem? hj)

theorem reported_written {is : List (Datum Double)} {j : Nat} {i : Datum Double} (hi : i ∈ is) :
    some (i.desc, i.info, i.vals.getD j .nil) ∈ written is j := List.mem_map_of_mem hi

/-- **C122** for messages without compression. -/
theorem C122_partial (c : FacCfg) (hc : c.inputType = .binary) (s s' : Fac Double) (m : Message Double) (input : List UInt8) (q : Int)
    (hs : s.r = .bin ⟨BitReader.bitsOfBytes input, 8 * q⟩) (h : Runtime.run c s = (.ok m, s'))
    (hcomp : fieldValue m 3 "isCompressed" = some (.bool false)) (hloc : LocalFits m) {ns : List Ast} (hns : Means c m ns)
    (hsim : simpleL true ns = true) (p : Payload Double) (hp : payloadOf m = some p)
    (hw : ∀ sub ∈ p.subsets, ∀ d info v, some (d, info, v) ∈ reported sub → EncodeSpec.Proper info v ∧ (info.unit = .numeric → Modest info)) :
    ∃ j, Marshal.message isFinite m = .ok j := by
  obtain ⟨_, _, _, _, p1, xs, -, -, -, -, k5, k6, k7, -⟩ := C100_uncompressed_partial c hc s s' m input q hs h hcomp hloc hns hsim
    fun p1 hp1 => by
      rw [hp] at hp1
      cases hp1
      exact fun sub hsub d info v hi => (hw sub hsub d info v hi).1
  rw [hp] at k6
  cases k6
  refine marshal_tame hs h hp fun sub hsub => ?_
  have hmem := List.mem_map_of_mem (f := reported) hsub
  rw [k7] at hmem
  obtain ⟨x, hx, e⟩ := List.mem_map.1 hmem
  obtain ⟨y, hcod⟩ := k5.coded x hx
  refine written_tame (fun i hi => ?_) e.symm
  obtain ⟨b, hb⟩ := hcod.each i hi
  exact single_tame ((hw sub hsub _ _ _ (e ▸ reported_written hi)).2) hb

/-- **C122** for messages with compression. -/
theorem C122_compressed (c : FacCfg) (hc : c.inputType = .binary) (s s' : Fac Double) (m : Message Double) (input : List UInt8) (q : Int)
    (hs : s.r = .bin ⟨BitReader.bitsOfBytes input, 8 * q⟩) (h : Runtime.run c s = (.ok m, s'))
    (hcomp : fieldValue m 3 "isCompressed" = some (.bool true)) (hsub : fieldValue m 3 "nSubsets" ≠ some (.uint 0)) (hloc : LocalFits m)
    {ns : List Ast} (hns : Means c m ns) (hsim : simpleL true ns = true) (p : Payload Double) (hp : payloadOf m = some p)
    (hw : ∀ sub ∈ p.subsets, ∀ d info v, some (d, info, v) ∈ reported sub → ProperColumn info ∧ (info.unit = .numeric → Modest info)) :
    ∃ j, Marshal.message isFinite m = .ok j := by
  obtain ⟨_, _, _, _, p1, k, is, -, -, -, -, -, k5, k6, k7, -⟩ := C100_compressed_partial c hc s s' m input q hs h hcomp hsub hloc hns hsim
    fun p1 hp1 => by
      rw [hp] at hp1
      cases hp1
      exact fun sub hsub d info v hi => (hw sub hsub d info v hi).1
  rw [hp] at k6
  cases k6
  refine marshal_tame hs h hp fun sub hsub => ?_
  have hmem := List.mem_map_of_mem (f := reported) hsub
  rw [k7] at hmem
  obtain ⟨j, -, e⟩ := List.mem_map.1 hmem
  obtain ⟨y, hcod⟩ := k5.coded
  refine written_tame (fun i hi => ?_) e.symm
  obtain ⟨b, hb⟩ := hcod.each i hi
  exact lenient_tame ((hw sub hsub _ _ _ (e ▸ reported_written hi)).2) hb

/-! ## Templates -/

/-- Where the descriptors met so far are modest. -/
structure ModestCtx (x : Ctx) : Prop where
  y202 : 0 ≤ x.ops.y202
  y207 : 0 ≤ x.ops.y207
  y207' : x.ops.y207 ≤ 255
  seen : ∀ d ∈ x.seen, ∀ e, d.d = some e → ModestDesc e

theorem ModestCtx.packing {x : Ctx} (h : ModestCtx x) {d : Desc} (hd : ModestDesc d) {e : Bentry} (he : d.entry = .b e) :
    (x.ops.packing e : PackingInfo Double).unit = .numeric → Modest (x.ops.packing e) := by
  intro hu
  have : e.unit = .numeric := by
    unfold Flat.Operands.packing at hu
    split at hu <;> simp_all
  exact C122_packing _ _ (hd.2.2 e he).1 (hd.2.2 e he).2 h.y202 h.y207 h.y207' this

theorem ModestCtx.add {x : Ctx} (h : ModestCtx x) {is : List (Datum Double)} (hi : ∀ i ∈ is, ∀ e, i.desc.d = some e → ModestDesc e) :
    ModestCtx (x.add is) := by
  refine ⟨h.y202, h.y207, h.y207', fun d hd => ?_⟩
  rcases List.mem_append.1 hd with hd | hd
  · exact h.seen d hd
  · obtain ⟨i, hm, rfl⟩ := List.mem_map.1 hd
    exact hi i hm

theorem modest_append {a b : List Ast} (ha : ModestTemplate a) (hb : ModestTemplate b) : ModestTemplate (a ++ b) := by
  intro n hn
  rw [nodesL_append] at hn
  rcases List.mem_append.1 hn with hn | hn
  · exact ha n hn
  · exact hb n hn

theorem modest_replicate {a : List Ast} (ha : ModestTemplate a) : ∀ k, ModestTemplate (List.replicate k a).flatten
  | 0 => by intro n hn; cases hn
  | k + 1 => by
    rw [List.replicate_succ, List.flatten_cons]
    exact modest_append ha (modest_replicate ha k)

theorem modest_tail {n : Ast} {ns : List Ast} (h : ModestTemplate (n :: ns)) : ModestTemplate ns := fun m hm =>
  h m (List.mem_append_right _ hm)

theorem modest_head {n : Ast} {ns : List Ast} (h : ModestTemplate (n :: ns)) {d : Desc} (hd : n.descriptor = some d) : ModestDesc d :=
  h n (List.mem_append_left _ (self_mem_nodes n)) d hd

theorem modest_below {n : Ast} {ns ms : List Ast} (h : ModestTemplate (n :: ns)) (hm : ∀ x ∈ ParserSpec.nodesL ms, x ∈ ParserSpec.nodes n) :
    ModestTemplate ms := fun m hm' => h m (List.mem_append_left _ (hm m hm'))

theorem modest_bare (u : Unit') (hu : u ≠ .numeric) (n : Int) :
    (EncodeSpec.bare u n : PackingInfo Double).unit = .numeric → Modest (EncodeSpec.bare u n) := fun h => absurd h hu

/-- What is written for a modest template has modest packings. -/
theorem coded_modest {τ : Type} {W : Wire Double τ} {compatible : Bool} {x y : Ctx} {ts : List Ast} {bits : List τ}
    {is : List (Datum Double)} (hc : Coded W compatible x ts bits is y) : ModestCtx x → ModestTemplate ts →
    (∀ i ∈ is, i.info.unit = .numeric → Modest i.info) ∧ ModestCtx y := by
  have hassoc : ∀ {d : Desc} {ws : List Int} {b : List τ} {is : List (Datum Double)}, Assocs W d ws b is →
      ∀ i ∈ is, i.desc = ⟨some d, true⟩ ∧ (i.info.unit = .numeric → Modest i.info) := by
    intro d ws b is ha
    induction ha with
    | nil => exact fun _ h => by cases h
    | cons hw _ ih =>
      intro i hi
      rcases List.mem_cons.1 hi with rfl | hi
      · exact ⟨rfl, modest_bare _ (by decide) _⟩
      · exact ih i hi
  have hzero : ∀ {d : Desc} {b : List τ} {is : List (Datum Double)}, Zero W compatible d b is →
      ∀ i ∈ is, i.desc = ⟨some d, false⟩ ∧ (i.info.unit = .numeric → Modest i.info) := by
    intro d b is ha i hi
    cases ha with
    | off _ => cases hi
    | on _ hw =>
      rw [List.mem_singleton] at hi
      subst hi
      exact ⟨rfl, modest_bare _ (by decide) _⟩
  have one : ∀ {x : Ctx} {i : Datum Double}, ModestCtx x → (∀ e, i.desc.d = some e → ModestDesc e) → ModestCtx (x.add [i]) :=
    fun h h1 => h.add fun i hi => by rw [List.mem_singleton.1 hi]; exact h1
  induction hc with
  | nil => exact fun h _ => ⟨fun _ h => (by cases h), h⟩
  | @element x _ _ _ _ d e _ _ _ _ he ha hw _ ih =>
    intro hx ht
    have hd := modest_head ht rfl
    obtain ⟨k1, k2⟩ := ih (hx.add (by
      intro i hi e' h'
      rcases List.mem_append.1 hi with hi | hi
      · rw [(hassoc ha i hi).1] at h'
        cases h'
        exact hd
      · rw [List.mem_singleton.1 hi] at h'
        cases h'
        exact hd)) (modest_tail ht)
    refine ⟨?_, k2⟩
    simp only [List.mem_append, List.mem_singleton, or_imp, forall_and, forall_eq]
    exact ⟨⟨fun i hi => (hassoc ha i hi).2, hx.packing hd he⟩, k1⟩
  | significance he hw _ ih =>
    intro hx ht
    have hd := modest_head ht rfl
    obtain ⟨k1, k2⟩ := ih (one hx (fun e h => by cases h; exact hd)) (modest_tail ht)
    refine ⟨?_, k2⟩
    simp only [List.mem_cons, or_imp, forall_and, forall_eq]
    exact ⟨hx.packing hd he, k1⟩
  | op205 hw _ ih =>
    intro hx ht
    have hd := modest_head ht rfl
    obtain ⟨k1, k2⟩ := ih (one hx (fun e h => by cases h; exact hd)) (modest_tail ht)
    refine ⟨?_, k2⟩
    simp only [List.mem_cons, or_imp, forall_and, forall_eq]
    exact ⟨modest_bare _ (by decide) _, k1⟩
  | op206 hw _ ih =>
    intro hx ht
    obtain ⟨k1, k2⟩ := ih (one hx (fun e h => modest_head (modest_below ht fun x hx => List.mem_cons_of_mem _ hx) h)) (modest_tail ht)
    refine ⟨?_, k2⟩
    simp only [List.mem_cons, or_imp, forall_and, forall_eq]
    exact ⟨modest_bare _ (by decide) _, k1⟩
  | marker h1 h2 h3 h4 hw _ ih =>
    intro hx ht
    have hd := modest_head ht rfl
    have htd := hx.seen _ (List.mem_of_getElem? h2) _ rfl
    obtain ⟨k1, k2⟩ := ih (one ⟨hx.y202, hx.y207, hx.y207', hx.seen⟩ (fun e h => by cases h; exact hd)) (modest_tail ht)
    refine ⟨?_, k2⟩
    simp only [List.mem_cons, or_imp, forall_and, forall_eq]
    exact ⟨hx.packing htd h4, k1⟩
  | delayed _ _ _ _ _ _ ih1 ih2 =>
    intro hx ht
    have hms := modest_below ht fun x hx => List.mem_cons_of_mem _ hx
    obtain ⟨k1, k2⟩ := ih1 hx (fun n hn => hms n (by simp only [ParserSpec.nodesL, List.append_nil] at hn ⊢; exact List.mem_append_left _ hn))
    obtain ⟨k3, k4⟩ := ih2 k2 (modest_append (modest_replicate (modest_tail hms) _) (modest_tail ht))
    refine ⟨?_, k4⟩
    simp only [List.mem_append, or_imp, forall_and]
    exact ⟨k1, k3⟩
  | bitmap _ _ hz _ _ _ ih1 ih2 =>
    intro hx ht
    have hd := modest_head ht rfl
    have hz' := hx.add fun i hi e h => by rw [(hzero hz i hi).1] at h; cases h; exact hd
    obtain ⟨k1, k2⟩ := ih1 ⟨hz'.y202, hz'.y207, hz'.y207', hz'.seen⟩ (modest_below ht fun x hx => List.mem_cons_of_mem _ hx)
    obtain ⟨k3, k4⟩ := ih2 ⟨k2.y202, k2.y207, k2.y207', k2.seen⟩ (modest_tail ht)
    refine ⟨?_, k4⟩
    simp only [List.mem_append, or_imp, forall_and]
    exact ⟨⟨fun i hi => (hzero hz i hi).2, k1⟩, k3⟩
  | recall _ hz _ ih =>
    intro hx ht
    have hd := modest_head ht rfl
    have hz' := hx.add fun i hi e h => by rw [(hzero hz i hi).1] at h; cases h; exact hd
    obtain ⟨k1, k2⟩ := ih ⟨hz'.y202, hz'.y207, hz'.y207', hz'.seen⟩ (modest_tail ht)
    refine ⟨?_, k2⟩
    simp only [List.mem_append, or_imp, forall_and]
    exact ⟨fun i hi => (hzero hz i hi).2, k1⟩
  | assessment _ hz _ _ _ _ _ _ _ _ _ ih1 ih2 ih3 ih4 =>
    intro hx ht
    have hd := modest_head ht rfl
    have hz' := hx.add fun i hi e h => by rw [(hzero hz i hi).1] at h; cases h; exact hd
    obtain ⟨k1, k2⟩ := ih1 ⟨hz'.y202, hz'.y207, hz'.y207', hz'.seen⟩ (modest_below ht fun x hx => by
      simp only [ParserSpec.nodesL, List.append_nil] at hx
      exact List.mem_cons_of_mem _ (List.mem_append_left _ (List.mem_append_left _ hx)))
    obtain ⟨k3, k4⟩ := ih2 k2 (modest_below ht fun x hx => List.mem_cons_of_mem _ (List.mem_append_left _ (List.mem_append_right _ hx)))
    obtain ⟨k5, k6⟩ := ih3 ⟨k4.y202, k4.y207, k4.y207', k4.seen⟩ (modest_below ht fun x hx => List.mem_cons_of_mem _ (List.mem_append_right _ hx))
    obtain ⟨k7, k8⟩ := ih4 k6 (modest_tail ht)
    refine ⟨?_, k8⟩
    simp only [List.mem_append, or_imp, forall_and]
    exact ⟨⟨⟨⟨fun i hi => (hzero hz i hi).2, k1⟩, k3⟩, k5⟩, k7⟩
  | absent _ ih | op203end _ _ ih => exact fun hx ht => ih hx (modest_tail ht)
  | sequence _ ih | notPresent _ ih =>
    exact fun hx ht => ih hx (modest_append (modest_below ht fun x hx => List.mem_cons_of_mem _ hx) (modest_tail ht))
  | fixed _ ih =>
    exact fun hx ht => ih hx (modest_append (modest_replicate (modest_below ht fun x hx => List.mem_cons_of_mem _ hx) _) (modest_tail ht))
  | op204 _ _ ih | op204end _ _ _ ih =>
    exact fun hx ht => ih ⟨hx.y202, hx.y207, hx.y207', hx.seen⟩
      (modest_append (modest_below ht fun x hx => List.mem_cons_of_mem _ hx) (modest_tail ht))
  | op201 _ ih | op208 _ ih | op235 _ ih | op237end _ ih => exact fun hx ht => ih ⟨hx.y202, hx.y207, hx.y207', hx.seen⟩ (modest_tail ht)
  | op202 _ ih => exact fun hx ht => ih ⟨(modest_head ht rfl).1, hx.y207, hx.y207', hx.seen⟩ (modest_tail ht)
  | op207 _ ih => exact fun hx ht => ih ⟨hx.y202, (modest_head ht rfl).1, (modest_head ht rfl).2.1, hx.seen⟩ (modest_tail ht)

theorem modest_start : ModestCtx {} := ⟨by decide, by decide, by decide, fun _ h => by cases h⟩

theorem written_modest {is : List (Datum Double)} {j : Nat} (h : ∀ i ∈ is, i.info.unit = .numeric → Modest i.info)
    {d : NodeDesc} {info : PackingInfo Double} {v : Val Double} (hm : some (d, info, v) ∈ written is j) :
    info.unit = .numeric → Modest info := by
  obtain ⟨i, hi, e⟩ := List.mem_map.1 hm
  cases e
  exact h i hi

/-- **C122** by template: if the tables have no scales below -100, a message without compression whose values are packed properly can be
written as JSON. -/
theorem C122_template (c : FacCfg) (hc : c.inputType = .binary) (s s' : Fac Double) (m : Message Double) (input : List UInt8) (q : Int)
    (hs : s.r = .bin ⟨BitReader.bitsOfBytes input, 8 * q⟩) (h : Runtime.run c s = (.ok m, s'))
    (hcomp : fieldValue m 3 "isCompressed" = some (.bool false)) (hloc : LocalFits m) {ns : List Ast} (hns : Means c m ns)
    (hsim : simpleL true ns = true) (hmod : ModestTemplate ns) (p : Payload Double) (hp : payloadOf m = some p)
    (hw : ∀ sub ∈ p.subsets, ∀ d info v, some (d, info, v) ∈ reported sub → EncodeSpec.Proper info v) :
    ∃ j, Marshal.message isFinite m = .ok j := by
  obtain ⟨_, _, _, _, p1, xs, -, -, -, -, k5, k6, k7, -⟩ := C100_uncompressed_partial c hc s s' m input q hs h hcomp hloc hns hsim
    fun p1 hp1 => by
      rw [hp] at hp1
      cases hp1
      exact hw
  rw [hp] at k6
  cases k6
  refine C122_partial c hc s s' m input q hs h hcomp hloc hns hsim p hp fun sub hsub d info v hi => ⟨hw sub hsub d info v hi, ?_⟩
  have hmem := List.mem_map_of_mem (f := reported) hsub
  rw [k7] at hmem
  obtain ⟨x, hx, e⟩ := List.mem_map.1 hmem
  obtain ⟨y, hcod⟩ := k5.coded x hx
  rw [← e] at hi
  exact written_modest (coded_modest hcod modest_start hmod).1 hi

/-- **C122** by template, with compression. -/
theorem C122_template_compressed (c : FacCfg) (hc : c.inputType = .binary) (s s' : Fac Double) (m : Message Double) (input : List UInt8)
    (q : Int) (hs : s.r = .bin ⟨BitReader.bitsOfBytes input, 8 * q⟩) (h : Runtime.run c s = (.ok m, s'))
    (hcomp : fieldValue m 3 "isCompressed" = some (.bool true)) (hsub : fieldValue m 3 "nSubsets" ≠ some (.uint 0)) (hloc : LocalFits m)
    {ns : List Ast} (hns : Means c m ns) (hsim : simpleL true ns = true) (hmod : ModestTemplate ns) (p : Payload Double)
    (hp : payloadOf m = some p) (hw : ∀ sub ∈ p.subsets, ∀ d info v, some (d, info, v) ∈ reported sub → ProperColumn info) :
    ∃ j, Marshal.message isFinite m = .ok j := by
  obtain ⟨_, _, _, _, p1, k, is, -, -, -, -, -, k5, k6, k7, -⟩ := C100_compressed_partial c hc s s' m input q hs h hcomp hsub hloc hns hsim
    fun p1 hp1 => by
      rw [hp] at hp1
      cases hp1
      exact hw
  rw [hp] at k6
  cases k6
  refine C122_compressed c hc s s' m input q hs h hcomp hsub hloc hns hsim p hp fun sub hsub d info v hi => ⟨hw sub hsub d info v hi, ?_⟩
  have hmem := List.mem_map_of_mem (f := reported) hsub
  rw [k7] at hmem
  obtain ⟨j, -, e⟩ := List.mem_map.1 hmem
  obtain ⟨y, hcod⟩ := k5.coded
  rw [← e] at hi
  exact written_modest (coded_modest hcod modest_start hmod).1 hi

/-! ## The hypotheses are met, and what goes wrong without them -/

namespace FiniteExample
open MessageExample AcceptExample LosslessExample

theorem tree_modest : ModestTemplate tree := by
  intro n hn d hd
  rw [List.mem_singleton.1 (show n ∈ [_] from hn)] at hd
  cases hd
  refine ⟨by decide, by decide, fun e he => ?_⟩
  cases he
  exact ⟨by decide, by decide⟩

example : ∃ (m : Message Double) (s' : Fac Double) (j : Doc Double),
    Runtime.run cfg (Fac.new (.bin ⟨BitReader.bitsOfBytes ([0x42, 0x55] ++ (body3 ++ stop) ++ []), 8 * 0⟩)) = (.ok m, s') ∧
    Marshal.message isFinite m = .ok j := by
  obtain ⟨m, s1, p, h, h1, h2, h3, h4, h5, h6⟩ := runs [0x42, 0x55] (by decide)
  obtain ⟨j, hj⟩ := C122_template cfg rfl _ s1 m _ 0 rfl h h1 h2 h3 (by decide) tree_modest p h4
    fun sub hsub => h6 _ (h5 ▸ List.mem_map_of_mem hsub)
  exact ⟨m, s1, j, h, hj⟩

example : ∃ (m : Message Double) (s' : Fac Double) (j : Doc Double),
    Runtime.run cfg (Fac.new (.bin ⟨BitReader.bitsOfBytes ([] ++ bytes4 ++ [7]), 8 * 0⟩)) = (.ok m, s') ∧
    Marshal.message isFinite m = .ok j := by
  obtain ⟨m, s1, p, h, h1, h0, h2, h3, h4, h5, h6⟩ := (C100_compressed_exactly (F := Double) cfg rfl
    (Fac.new (.bin ⟨BitReader.bitsOfBytes ([] ++ bytes4 ++ [7]), 8 * 0⟩)) _ 0 rfl (by decide) _).2
    ⟨draft4, [], bytes4, [7], 2, _, ⟨rfl, by decide, by decide +kernel⟩, sound4, ⟨group, rootDescriptor, found, parsed⟩, by decide,
      ⟨rfl, rfl, LosslessExample.codedC⟩, rfl⟩
  obtain ⟨j, hj⟩ := C122_template_compressed cfg rfl _ s1 m _ 0 rfl h h1 h0 h2 h3 (by decide) tree_modest p h4
    fun sub hsub => h6 _ (h5 ▸ List.mem_map_of_mem hsub)
  exact ⟨m, s1, j, h, hj⟩

/-- The tables with the scale -400. -/
def tables' : Tables where
  getB n := if n = ⟨0, 0, 0, 13⟩ then .ok ⟨[], [(12001, { (default : Bentry) with unit := .numeric, nbits := 8, scale := -400 })]⟩
    else .err .notExist
  getD n := if n = ⟨0, 0, 0, 13⟩ then .ok ⟨[], []⟩ else .err .notExist

def cfg' : FacCfg := ⟨tables', .binary, false, false, 100⟩

def large : Bentry := { (default : Bentry) with unit := .numeric, nbits := 8, scale := -400 }

def tree' : List Ast := [.element ⟨12001, .b large⟩ false]

def group' : ChainGroup := (addLocalAndWmoTableGroups tables' 0 1 0 13 0 ⟨[]⟩).2

theorem found' : addLocalAndWmoTableGroups tables' 0 1 0 13 0 ⟨[]⟩ = (.ok (), group') := by
  have k : (addLocalAndWmoTableGroups tables' 0 1 0 13 0 ⟨[]⟩).1 = .ok () := by decide +kernel
  exact eq_of_fst k

theorem parsed' : parse group'.lookup cfg'.fuel [12001] = .ok (.base rootDescriptor tree') := by rfl

def info' : PackingInfo Double := ({} : Flat.Operands).packing large

def datum' (n : Nat) : Datum Double := ⟨⟨some ⟨12001, .b large⟩, false⟩, info', [value info' 8 n]⟩

theorem coded' (n : Nat) (h : n < 2 ^ 8) : ∃ y, Coded Single false {} tree' (natBits 8 n) [datum' n] y := by
  have := Coded.element (F := Double) (W := Single) (compatible := false) (x := {}) (ts := [])
    (d := ⟨12001, .b large⟩) (e := large) rfl .nil
    (.number (n := 8) (raw := n) (.inl rfl) rfl (by decide) h) .nil
  exact ⟨_, by simpa using! this⟩

/-- 18 times 10^400 is infinite. -/
theorem infinite : isFinite (scaled info' 0x12) = false := by decide +kernel

theorem runs' : ∃ m s' p,
    Runtime.run cfg' (Fac.new (.bin ⟨BitReader.bitsOfBytes ([] ++ (body3 ++ stop) ++ []), 8 * 0⟩) : Fac Double) = (.ok m, s') ∧
    payloadOf m = some p ∧ p.subsets.map reported = [written [datum' 0x12] 0, written [datum' 0x13] 0] := by
  obtain ⟨m, s', p, h1, -, -, -, h2, h3, -⟩ := (C100_uncompressed_exactly cfg' rfl
    (Fac.new (.bin ⟨BitReader.bitsOfBytes ([] ++ (body3 ++ stop) ++ []), 8 * 0⟩) : Fac Double) _ 0 rfl (by decide) _).2 ⟨draft3, [], body3 ++ stop, [],
    [(natBits 8 0x12, [datum' 0x12]), (natBits 8 0x13, [datum' 0x13])], ⟨rfl, by decide, by decide +kernel⟩, sound3,
      ⟨group', rootDescriptor, found', parsed'⟩, ⟨rfl, rfl, rfl, by simpa using! ⟨coded' 0x12 (by decide), coded' 0x13 (by decide)⟩⟩, rfl⟩
  exact ⟨m, s', p, h1, h2, h3⟩

end FiniteExample

open FiniteExample in
/-- C122 is violated by tables with a scale of -400: the message is decoded to infinite numbers and has no JSON document. -/
theorem C122_violates : ¬ C122_statement := by
  intro hall
  obtain ⟨m, s', p, h, hp, hr⟩ := runs'
  have hj := (C90_exists _ _).1.1 (hall _ _ _ m h)
  obtain ⟨_, _, _, -, -, -, -, t, rfl, -⟩ := run_trace_at rfl h
  rw [t.payloadOf_eq] at hp
  cases hp
  have hne : t.p.subsets ≠ [] := by
    intro e
    rw [e] at hr
    cases hr
  obtain ⟨sub, rest, hsub⟩ := List.exists_cons_of_ne_nil hne
  rw [hsub, List.map_cons] at hr
  have h1 := (List.cons.inj hr).1
  have hcell : ∃ y ∈ sub.cells, y.v = .float (scaled info' 0x12) := by
    cases hc : sub.cells with
    | nil => unfold reported at h1; rw [hc] at h1; cases h1
    | cons y ys =>
      refine ⟨y, by simp, ?_⟩
      unfold reported at h1
      rw [hc, List.map_cons] at h1
      have h2 := (List.cons.inj h1).1
      split at h2
      · have h3 := Option.some.inj h2
        exact ((Prod.mk.inj (Prod.mk.inj h3).2).2).trans (show value info' 8 0x12 = _ from value_present rfl (by decide))
      · cases h2
  obtain ⟨y, hy, hv⟩ := hcell
  have := hj (scaled info' 0x12) (by
    unfold items
    refine List.mem_flatMap.2 ⟨t.sec4, by simp [Trace.message, Trace.sections], List.mem_flatMap.2
      ⟨payloadField t.p (t.r4''.pos - t.r4'.pos), by simp [Trace.sec4], ?_⟩⟩
    refine List.mem_flatMap.2 ⟨sub, by simp [hsub], ?_⟩
    rw [← hv]
    exact List.mem_map_of_mem (f := fun c : Cell Double => c.v) hy)
  rw [infinite] at this
  cases this

/-- Zero is no better: 0 divided by 10^-400, which is 0 as a double, is a NaN. -/
theorem C122_zero : scaled FiniteExample.info' 0 = Double.nan := by decide +kernel

example : Modest temperature := ⟨0, 0, by decide, by decide, by decide, by decide +kernel, by decide⟩

/-- An element with 202129 and 207003 in force. -/
example : Modest (({ y202 := 129, y207 := 3 } : Flat.Operands).packing ⟨[], [], .numeric, -5, -1000, 15, [], .numeric, 0, 0⟩) :=
  C122_packing _ _ (by decide) (by decide) (by decide) (by decide) (by decide) rfl

end Gobufr
