import Verif.Proofs.EncodeJson
import Verif.Props.Marshal

/-!
# C98: flat JSON data are read as written

Data given as a JSON document are the values one after the other, whatever the nesting of the arrays they
stand in.
-/

namespace Gobufr
open Flat EncodeSpec Spec

variable {F : Type} {c : VisCfg}

/-- Decoding the data section `ts` by the template `ns`, from JSON, gives the items. -/
def ReadsBack [GoFloat F] (c : VisCfg) (ns : List Ast) (ts t : List (Tok F)) (data : List (List (Tok F) × List (Datum F))) : Prop :=
  ∀ (d : Desc) (b : Bool) (s : Vis F) (e : Err) (pos : Int), s.r = .json ⟨⟨ts, e, pos⟩, []⟩ →
    ∃ p' s' ts' pos', Vis.decodeSubsets c (.base d ns) data.length { compressed := b } s = (.ok p', s') ∧
      s'.r = .json ⟨⟨ts', e, pos'⟩, []⟩ ∧ scalars ts' = t ∧ p'.subsets.map reported = data.map fun x => written x.2 0

/-- **C98**, as it should be: the values of the subsets, one scalar for each and null for a missing value, are decoded to
the values written; what follows is left alone. -/
def C98_statement (F : Type) [GoFloat F] : Prop :=
  ∀ (c : VisCfg), CfgOk c → c.inputType = .flatJson → ∀ (ns : List Ast), noBaseL ns = true →
    ∀ (data : List (List (Tok F) × List (Datum F))) (ts t : List (Tok F)),
      (∀ x ∈ data, ∃ y, Coded ScalarNull c.compatible {} ns x.1 x.2 y) → scalars ts = data.flatMap Prod.fst ++ t →
      ReadsBack c ns ts t data

theorem json_unpacker (hc : CfgOk c) (hj : c.inputType = .flatJson) : c.unpacker = .json := by
  obtain ⟨fuel, hf⟩ := hc
  rw [hj] at hf
  simp only [newDeserializeVisitor, newUnpacker, Outcome.bind_ok] at hf
  injection hf with hf
  rw [← hf]

/-- **C98**, the part that holds: without missing values.  The compression flag makes no difference: every subset is
written in full.  (Missing: null for a missing value, which is refused.) -/
theorem C98_partial [GoFloat F] [LawfulGoFloat F] (hc : CfgOk c) (hj : c.inputType = .flatJson) {ns : List Ast}
    (hns : noBaseL ns = true) (data : List (List (Tok F) × List (Datum F))) (ts t : List (Tok F))
    (h : ∀ x ∈ data, ∃ y, Coded Scalar c.compatible {} ns x.1 x.2 y) (hts : scalars ts = data.flatMap Prod.fst ++ t) :
    ReadsBack c ns ts t data := by
  intro d b s e pos hr
  have hunp := json_unpacker hc hj
  have hcomp : ¬ (c.compressed = true ∧ c.inputType = .binary) := by simp [hj]
  have key : ∀ (data : List (List (Tok F) × List (Datum F))) (p0 : Payload F) (s : Vis F),
      (∀ x ∈ data, ∃ y, Coded Scalar c.compatible {} ns x.1 x.2 y) → AtToks e (data.flatMap Prod.fst ++ t) s.r →
      ∃ p' s', Vis.decodeSubsets c (.base d ns) data.length p0 s = (.ok p', s') ∧ AtToks e t s'.r ∧
        p'.subsets.map reported = p0.subsets.map reported ++ data.map fun x => written x.2 0 := by
    intro data
    induction data with
    | nil =>
      intro p0 s _ hr
      exact ⟨p0, s, rfl, by simpa using hr, by simp⟩
    | cons x data ih =>
      intro p0 s h hr
      obtain ⟨y, hx⟩ := h x List.mem_cons_self
      rw [List.flatMap_cons, List.append_assoc] at hr
      obtain ⟨s1, ρ, f, e1, r1, st1, rep, hcols, hsub⟩ := root_coded hc (reads_json hunp) (by rw [if_neg hcomp]) (by simp)
        hns hx d hr
      obtain ⟨p', s', e2, r2, q2⟩ := ih (Vis.addSubsets s1.heap s1.node s1.cells p0) s1
        (fun z hz => h z (List.mem_cons_of_mem _ hz)) r1
      refine ⟨p', s', ?_, r2, ?_⟩
      · rw [List.length_cons]
        refine decodeSubsets_succ.2 ⟨s1, s1.node, e1, ?_, e2⟩
        unfold Vis.treeRoot
        rw [st1]
        rfl
      · rw [q2, addSubsets_subsets, rep.cells, hsub]
        simp only [subsetsOf, List.zipIdx_cons, List.zipIdx_nil, List.map_cons, List.map_nil, List.map_append,
          reported_cells rep.nodes, hcols]
        simp
  obtain ⟨p', s', h1, ⟨ts', pos', h2, h4⟩, h3⟩ := key data { compressed := b } s h ⟨ts, pos, hr, hts⟩
  exact ⟨p', s', ts', pos', h1, h2, h4, by simpa using h3⟩

/-! ## The same data in bits -/

/-- The scalar of a value. -/
def tokenOf [GoFloat F] : Val F → Tok F
  | .float f => .num f
  | .uint n => .num (GoFloat.ofNat n)
  | .int z => .num (if 0 ≤ z then GoFloat.ofNat z.toNat else GoFloat.ofInt z)
  | .bytes s => .str s
  | .binary (some b) => .str b.string
  | _ => .null

theorem string_packed {l : List Bool} {bs : List UInt8} (h : Packed l bs) : (Binary.mk bs l.length).string = digits l := by
  rw [packed_inj h (packed_packBits l)]
  exact string_pack l

theorem token_unique [GoFloat F] {v : Val F} {t : Tok F} (h : Token v t) : t = tokenOf v := by
  cases h with
  | bits hp => simp only [tokenOf, string_packed hp]
  | _ => rfl

theorem tokens_unique [GoFloat F] {vs : List (Val F)} {ts : List (Tok F)} (h : Tokens vs ts) : ts = vs.map tokenOf := by
  induction h with
  | nil => rfl
  | cons h _ ih => rw [token_unique h, ih]; rfl

theorem single_json [GoFloat F] {info : PackingInfo F} {b : List Bool} {vs : List (Val F)} (h : Single info b vs)
    (hv : ∀ v ∈ vs, Present v ∧ Exact v) : Scalar info (vs.map tokenOf) vs := by
  cases h with
  | @number n raw h1 h2 h3 h4 =>
    have hp := hv _ List.mem_cons_self
    revert hp
    simp only [List.map_cons, List.map_nil, UnpackSpec.value]
    split
    · exact fun hp => hp.1.elim
    · intro hp
      unfold UnpackSpec.present at hp ⊢
      rcases h1 with h1 | h1 | h1 <;> simp only [h1] at hp ⊢
      · exact .one (.float _) h1 trivial trivial
      · exact .one (.uint _) (.inl h1) hp.2 trivial
      · exact .one (.uint _) (.inr h1) hp.2 trivial
  | @text s h1 h2 => exact .one (.text s) h1 trivial trivial
  | @signed n mag neg h1 h2 h3 h4 => exact .one (.int _) h1 (hv _ List.mem_cons_self).2 trivial
  | @skipped _ bs h1 h2 h3 =>
    have := Scalar.one (F := F) (.bits h3) (info := info) h1 trivial trivial
    rw [← string_packed h3] at this
    exact this

/-- C98. The values of a binary data section, one scalar for each, decode to the same subsets as the bits. -/
theorem C98_agrees [GoFloat F] [LawfulGoFloat F] {cb cj : VisCfg} (hcb : CfgOk cb) (hb : cb.inputType = .binary)
    (hu : cb.compressed = false) (hcj : CfgOk cj) (hj : cj.inputType = .flatJson) (hcc : cj.compatible = cb.compatible)
    {ns : List Ast} (hns : noBaseL ns = true) (d : Desc) (b b' : Bool) (data : List (List Bool × List (Datum F)))
    (h : ∀ x ∈ data, ∃ y, Coded Single cb.compatible {} ns x.1 x.2 y) (hv : ∀ v ∈ EncodeSpec.values data, Present v ∧ Exact v)
    (toks ts : List (Tok F)) (ht : Tokens (EncodeSpec.values data) toks) (hts : scalars ts = toks)
    (s s' : Vis F) (p pos : Int) (e : Err) (hr : s.r = .bin ⟨data.flatMap Prod.fst, p⟩) (hr' : s'.r = .json ⟨⟨ts, e, pos⟩, []⟩) :
    ∃ p1 s1 p2 s2, Vis.decodeSubsets cb (.base d ns) data.length { compressed := b } s = (.ok p1, s1) ∧
      Vis.decodeSubsets cj (.base d ns) data.length { compressed := b' } s' = (.ok p2, s2) ∧
      p2.subsets.map reported = p1.subsets.map reported := by
  obtain ⟨p1, s1, h1, -, h2⟩ := C88_uncompressed hcb hb hu hns d b data h [] p s (by simpa using hr)
  have hsub : ∀ x ∈ data, ∀ i ∈ x.2, ∀ v ∈ i.vals, Present v ∧ Exact v := fun x hx i hi v hvv =>
    hv v (List.mem_flatMap.2 ⟨x, hx, List.mem_flatMap.2 ⟨i, hi, hvv⟩⟩)
  have hcoded : ∀ z ∈ data.map fun x => ((x.2.flatMap fun i => i.vals.map tokenOf : List (Tok F)), x.2),
      ∃ y, Coded Scalar cj.compatible {} ns z.1 z.2 y := by
    intro z hz
    obtain ⟨x, hx, rfl⟩ := List.mem_map.1 hz
    obtain ⟨y, hy⟩ := h x hx
    rw [hcc]
    exact ⟨y, hy.rewrite (f := fun _ vs => vs.map tokenOf) (P := fun v => Present v ∧ Exact v) (fun _ _ _ hw hp => single_json hw hp) (hsub x hx)⟩
  have htoks : toks = (data.map fun x => ((x.2.flatMap fun i => i.vals.map tokenOf : List (Tok F)), x.2)).flatMap Prod.fst ++ [] := by
    rw [tokens_unique ht, List.append_nil, List.flatMap_map, EncodeSpec.values, List.map_flatMap]
    congr
    funext x
    rw [List.map_flatMap]
  obtain ⟨p2, s2, _, _, k1, -, -, k2⟩ := C98_partial hcj hj hns _ ts [] hcoded (hts.trans htoks) d b' s' e pos hr'
  refine ⟨p1, s1, p2, s2, h1, by simpa using k1, ?_⟩
  rw [k2, h2, List.map_map]
  rfl

/-! ## The document of a payload -/

theorem scalars_append [GoFloat F] (a b : List (Tok F)) : scalars (a ++ b) = scalars a ++ scalars b := List.filter_append ..

theorem scalars_toksL [GoFloat F] : ∀ (js : List (Doc F)), scalars (Doc.toksL js) = js.flatMap fun j => scalars j.toks
  | [] => rfl
  | j :: js => by simp only [Doc.toksL, scalars_append, scalars_toksL js, List.flatMap_cons]

theorem scalars_arr [GoFloat F] (js : List (Doc F)) : scalars (Doc.arr js).toks = js.flatMap fun j => scalars j.toks := by
  rw [← scalars_toksL]
  simp only [Doc.toks, scalars_append]
  simp [scalars]

theorem elements_scalars [GoFloat F] {α : Type} {f : α → Outcome (Doc F)} {g : α → List (Tok F)} : ∀ {l : List α} {js : List (Doc F)},
    Marshal.elements f l = .ok js → (∀ x ∈ l, ∀ j, f x = .ok j → scalars j.toks = g x) →
    (js.flatMap fun j => scalars j.toks) = l.flatMap g ∧ js.length = l.length
  | [], js, h, _ => by cases h; exact ⟨rfl, rfl⟩
  | x :: l, js, h, hg => by
    unfold Marshal.elements at h
    cases hx : f x with
    | ok j =>
      rw [hx, Outcome.bind_ok] at h
      cases hl : Marshal.elements f l with
      | ok js' =>
        rw [hl, Outcome.bind_ok] at h
        cases h
        obtain ⟨h1, h2⟩ := elements_scalars hl fun y hy => hg y (List.mem_cons_of_mem _ hy)
        rw [List.flatMap_cons, List.flatMap_cons, h1, hg x List.mem_cons_self j hx]
        exact ⟨rfl, by simp [h2]⟩
      | err e => rw [hl] at h; cases h
      | panic e => rw [hl] at h; cases h
      | diverge => rw [hl] at h; cases h
    | err e => rw [hx] at h; cases h
    | panic e => rw [hx] at h; cases h
    | diverge => rw [hx] at h; cases h

theorem call_ok {o : Outcome (Doc F)} {j : Doc F} (h : Marshal.call o = .ok j) : o = .ok j := by
  unfold Marshal.call Outcome.wrapErr at h
  cases o <;> simp_all

theorem value_scalars [GoFloat F] {finite : F → Bool} {info : PackingInfo F} {v : Val F} {j : Doc F} (hs : Suits info v)
    (hp : Present v) (ht : NoText v) (h : Marshal.value finite v = .ok j) : scalars j.toks = [tokenOf v] := by
  cases v with
  | nil => exact hp.elim
  | bytes s => exact ht.elim
  | str s => exact hs.elim
  | bool s => exact hs.elim
  | uint n => 
    cases h
    simp [Doc.toks, tokenOf, scalars]
  | int z => cases h; rfl
  | float f =>
    simp only [Marshal.value] at h
    split at h
    · cases h; rfl
    · cases h
  | binary b =>
    cases b with
    | none => exact hs.elim
    | some b => cases h; rfl

theorem scalar_suits [GoFloat F] {info : PackingInfo F} {b : List (Tok F)} {vs : List (Val F)} (h : Scalar info b vs) :
    ∀ v ∈ vs, Suits info v := by
  cases h with
  | one _ h _ _ => simpa using h

theorem single_one [GoFloat F] {info : PackingInfo F} {b : List Bool} {vs : List (Val F)} (h : Single info b vs) :
    ∃ v, vs = [v] := by
  cases h <;> exact ⟨_, rfl⟩

/-- The values of a subset are the values written. -/
theorem reported_values [GoFloat F] {x : Subset F} {is : List (Datum F)} (h : reported x = written is 0)
    (h1 : ∀ i ∈ is, ∃ v, i.vals = [v]) : (x.cells.map fun c => c.v) = is.flatMap Datum.vals := by
  have e : is.flatMap Datum.vals = is.map fun i => i.vals.getD 0 .nil := by
    clear h
    induction is with
    | nil => rfl
    | cons i is ih =>
      obtain ⟨v, hv⟩ := h1 i List.mem_cons_self
      rw [List.flatMap_cons, List.map_cons, ih fun i hi => h1 i (List.mem_cons_of_mem _ hi), hv]
      rfl
  rw [e]
  apply List.ext_getElem?
  intro k
  have hk := congrArg (fun l => l[k]?) h
  simp only [reported, written, List.getElem?_map] at hk ⊢
  cases hc : x.cells[k]? with
  | none =>
    rw [hc] at hk
    cases hi : is[k]? with
    | none => rfl
    | some i => rw [hi] at hk; simp at hk
  | some c =>
    rw [hc] at hk
    cases hi : is[k]? with
    | none => rw [hi] at hk; simp at hk
    | some i =>
      rw [hi] at hk
      simp only [Option.map_some, Option.some.injEq] at hk ⊢
      split at hk
      · simp only [Option.some.injEq, Prod.mk.injEq] at hk
        exact hk.2.2
      · cases hk

/-- C98. The JSON document of a payload without text and missing values, given as JSON input for the same template, decodes
to the same subsets. -/
theorem C98_document [GoFloat F] [LawfulGoFloat F] {cb cj : VisCfg} (hcb : CfgOk cb) (hb : cb.inputType = .binary)
    (hu : cb.compressed = false) (hcj : CfgOk cj) (hj : cj.inputType = .flatJson) (hcc : cj.compatible = cb.compatible)
    {ns : List Ast} (hns : noBaseL ns = true) (d : Desc) (b b' : Bool) (data : List (List Bool × List (Datum F)))
    (h0 : data ≠ []) (h : ∀ x ∈ data, ∃ y, Coded Single cb.compatible {} ns x.1 x.2 y)
    (hv : ∀ v ∈ EncodeSpec.values data, Present v ∧ Exact v) (hv' : ∀ v ∈ EncodeSpec.values data, NoText v)
    (s s1 s' : Vis F) (p pos : Int) (e : Err) (hr : s.r = .bin ⟨data.flatMap Prod.fst, p⟩) (p1 : Payload F)
    (h1 : Vis.decodeSubsets cb (.base d ns) data.length { compressed := b } s = (.ok p1, s1)) (finite : F → Bool) (j : Doc F)
    (hj1 : Marshal.payload finite p1 = .ok j) (hr' : s'.r = .json ⟨⟨j.toks, e, pos⟩, []⟩) :
    ∃ p2 s2, Vis.decodeSubsets cj (.base d ns) data.length { compressed := b' } s' = (.ok p2, s2) ∧
      p2.subsets.map reported = p1.subsets.map reported := by
  obtain ⟨q1, t1, k1, -, k2⟩ := C88_uncompressed hcb hb hu hns d b data h [] p s (by simpa using hr)
  rw [h1] at k1
  cases k1
  have hcells : ∀ (l : List (Subset F)) (data : List (List Bool × List (Datum F))),
      (∀ x ∈ data, ∃ y, Coded Single cb.compatible {} ns x.1 x.2 y) → (l.map reported = data.map fun x => written x.2 0) →
      (l.flatMap fun x => x.cells.map fun c => tokenOf c.v) = (EncodeSpec.values data).map tokenOf := by
    intro l
    induction l with
    | nil =>
      intro data _ hl
      cases data with
      | nil => rfl
      | cons x data => cases hl
    | cons x l ih =>
      intro data hd hl
      cases data with
      | nil => cases hl
      | cons z data =>
        obtain ⟨hl1, hl2⟩ := List.cons.inj hl
        obtain ⟨y, hy⟩ := hd z List.mem_cons_self
        have e1 := reported_values hl1 fun i hi => by
          obtain ⟨b, hb⟩ := hy.each i hi
          exact single_one hb
        have e2 := ih data (fun x hx => hd x (List.mem_cons_of_mem _ hx)) hl2
        unfold EncodeSpec.values at e2 ⊢
        rw [List.flatMap_cons, List.flatMap_cons, List.map_append, e2, ← e1, List.map_map]
        rfl
  have hsuits : ∀ v ∈ EncodeSpec.values data, ∃ info : PackingInfo F, Suits info v := by
    intro v hvv
    obtain ⟨x, hx, hi⟩ := List.mem_flatMap.1 hvv
    obtain ⟨i, hi, hv1⟩ := List.mem_flatMap.1 hi
    obtain ⟨y, hy⟩ := h x hx
    obtain ⟨b, hb⟩ := hy.each i hi
    exact ⟨_, scalar_suits (single_json hb fun v hv2 => hv v
      (List.mem_flatMap.2 ⟨x, hx, List.mem_flatMap.2 ⟨i, hi, hv2⟩⟩)) v hv1⟩
  have hmem : ∀ (l : List (Subset F)) (data : List (List Bool × List (Datum F))),
      (∀ x ∈ data, ∃ y, Coded Single cb.compatible {} ns x.1 x.2 y) → (l.map reported = data.map fun x => written x.2 0) →
      ∀ x ∈ l, ∀ c ∈ x.cells, c.v ∈ EncodeSpec.values data := by
    intro l data hd hl x hx c hc
    have : reported x ∈ data.map fun x => written x.2 0 := by rw [← hl]; exact List.mem_map.2 ⟨x, hx, rfl⟩
    obtain ⟨z, hz, e⟩ := List.mem_map.1 this
    obtain ⟨y, hy⟩ := hd z hz
    have e1 := reported_values e.symm fun i hi => by
      obtain ⟨b, hb⟩ := hy.each i hi
      exact single_one hb
    refine List.mem_flatMap.2 ⟨z, hz, ?_⟩
    rw [← e1]
    exact List.mem_map.2 ⟨c, hc, rfl⟩
  have hsc : scalars j.toks = (EncodeSpec.values data).map tokenOf := by
    rw [← hcells _ _ h k2]
    unfold Marshal.payload Marshal.appended at hj1
    cases hel : Marshal.elements (fun s => Marshal.call (Marshal.subset finite s)) p1.subsets with
    | ok js =>
      rw [hel, Outcome.bind_ok] at hj1
      obtain ⟨e1, e2⟩ := elements_scalars (g := fun x : Subset F => x.cells.map fun c => tokenOf c.v) hel (by
        intro x hx j hj
        have hj := call_ok hj
        unfold Marshal.subset Marshal.made at hj
        cases hel' : Marshal.elements (Marshal.value finite) (x.cells.map fun c => c.v) with
        | ok js =>
          rw [hel', Outcome.bind_ok] at hj
          cases hj
          rw [scalars_arr]
          have := (elements_scalars (g := fun v => [tokenOf v]) hel' (by
            intro v hvv j hj
            obtain ⟨c, hc, rfl⟩ := List.mem_map.1 hvv
            have hm := hmem _ _ h k2 x hx c hc
            obtain ⟨info, hs⟩ := hsuits _ hm
            exact value_scalars hs (hv _ hm).1 (hv' _ hm) hj)).1
          rw [this, List.flatMap_map]
          exact List.map_eq_flatMap.symm
        | err e => rw [hel'] at hj; cases hj
        | panic e => rw [hel'] at hj; cases hj
        | diverge => rw [hel'] at hj; cases hj)
      rw [← e1]
      cases js with
      | nil =>
        have hl := congrArg List.length k2
        simp only [List.length_map, ← e2, List.length_nil] at hl
        exact absurd (List.length_eq_zero_iff.1 hl.symm) h0
      | cons j0 js =>
        cases hj1
        exact scalars_arr _
    | err e => rw [hel] at hj1; cases hj1
    | panic e => rw [hel] at hj1; cases hj1
    | diverge => rw [hel] at hj1; cases hj1
  have htok : ∀ (vs : List (Val F)), (∀ v ∈ vs, ∃ t, Token v t) → Tokens vs (vs.map tokenOf) := by
    intro vs
    induction vs with
    | nil => exact fun _ => .nil
    | cons v vs ih =>
      intro hvs
      obtain ⟨t, ht⟩ := hvs v List.mem_cons_self
      have := token_unique ht
      exact .cons (this ▸ ht) (ih fun v hv => hvs v (List.mem_cons_of_mem _ hv))
  obtain ⟨q1, t1, p2, s2, m1, m2, m3⟩ := C98_agrees hcb hb hu hcj hj hcc hns d b b' data h hv _ j.toks (htok _ (by
    intro v hvv
    obtain ⟨x, hx, hi⟩ := List.mem_flatMap.1 hvv
    obtain ⟨i, hi, hv1⟩ := List.mem_flatMap.1 hi
    obtain ⟨y, hy⟩ := h x hx
    obtain ⟨b, hb⟩ := hy.each i hi
    have := single_json hb fun v hv2 => hv v (List.mem_flatMap.2 ⟨x, hx, List.mem_flatMap.2 ⟨i, hi, hv2⟩⟩)
    generalize hl : i.vals.map tokenOf = l at this
    generalize hl' : i.vals = l' at this hv1
    cases this with
    | one ht _ _ _ =>
      rw [List.mem_singleton] at hv1
      subst hv1
      exact ⟨_, ht⟩)) hsc s s' p pos e hr hr'
  rw [h1] at m1
  cases m1
  exact ⟨p2, s2, m2, m3⟩

/-! ## Examples -/

namespace ScalarExample
open PayloadExample EncodeExample

/-- JSON input; the compression flag is set, to no effect. -/
def cfgJ : VisCfg := ⟨true, .flatJson, false, 2, .json⟩

theorem cfgJ_ok : CfgOk cfgJ := ⟨0, rfl⟩

/-- A number that is missing. -/
def missing : Datum ToyFloat := ⟨⟨some e8, false⟩, ⟨.numeric, 0, ⟨0⟩, 8⟩, [.nil]⟩

theorem missing_coded : ∃ y, Coded (F := ToyFloat) ScalarNull false {} [.element e8 false] [.null] [missing] y :=
  ⟨_, Coded.element (F := ToyFloat) (W := ScalarNull) (compatible := false) (x := {}) (ts := []) (d := e8) (ab := []) (vb := [.null])
    (bs := []) (as := []) (is := []) (vs := [.nil]) rfl .nil (ScalarNull.one .missing (.inl rfl) trivial) .nil⟩

/-- The code 9 and the number 103. -/
theorem coded2 : ∃ is y, Coded (F := ToyFloat) Single false {} [.element e4 false, .element e8 false]
    (Spec.natBits 4 9 ++ Spec.natBits 8 103) is y ∧ is.map Datum.vals = [[.uint 9], [.float ⟨103⟩]] := by
  have : ∃ bits is y, Coded (F := ToyFloat) Single false {} [.element e4 false, .element e8 false] bits is y ∧
      bits = Spec.natBits 4 9 ++ Spec.natBits 8 103 ∧ is.map Datum.vals = [[.uint 9], [.float ⟨103⟩]] := by
    refine ⟨_, _, _, .element rfl .nil (.number (n := 4) (raw := 9) (.inr (.inl rfl)) rfl (by decide) (by decide))
      (.element rfl .nil (.number (n := 8) (raw := 103) (.inl rfl) rfl (by decide) (by decide)) .nil), ?_, ?_⟩
    · decide
    · decide
  obtain ⟨_, is, y, h, rfl, hv⟩ := this
  exact ⟨is, y, h, hv⟩

end ScalarExample

open ScalarExample PayloadExample in
/-- **C98** as it should be fails: null is refused. -/
theorem C98_violates : ¬ C98_statement ToyFloat := by
  intro h
  obtain ⟨y, hy⟩ := missing_coded
  obtain ⟨p', s', ts', pos', h1, -⟩ := h cfgJ cfgJ_ok rfl [.element e8 false] (by decide) [([.null], [missing])] [.null] []
    (by simpa using ⟨y, hy⟩) (by decide) (plain 0) false
    { (default : Vis ToyFloat) with r := .json ⟨⟨[.null], .eof, 0⟩, []⟩ } .eof 0 rfl
  have h2 : (match (Vis.decodeSubsets cfgJ (.base (plain 0) [.element e8 false]) 1 { compressed := false }
      { (default : Vis ToyFloat) with r := .json ⟨⟨[.null], .eof, 0⟩, []⟩ }).1 with | .err _ => true | _ => false) = true := by
    decide +kernel
  have h1 : Vis.decodeSubsets cfgJ (.base (plain 0) [.element e8 false]) 1 { compressed := false }
      { (default : Vis ToyFloat) with r := .json ⟨⟨[.null], .eof, 0⟩, []⟩ } = (.ok p', s') := h1
  rw [h1] at h2
  cases h2

open ScalarExample PayloadExample in
/-- The hypotheses of `C98_agrees` (and with them those of `C98_partial`) are met by two subsets in nested arrays. -/
example : ∃ (p1 p2 : Payload ToyFloat) (s1 s2 : Vis ToyFloat),
    Vis.decodeSubsets cfg (.base (plain 0) [.element e4 false, .element e8 false]) 2 { compressed := false }
      { (default : Vis ToyFloat) with r := .bin ⟨(Spec.natBits 4 9 ++ Spec.natBits 8 103) ++ (Spec.natBits 4 9 ++ Spec.natBits 8 103), 0⟩ }
      = (.ok p1, s1) ∧
    Vis.decodeSubsets cfgJ (.base (plain 0) [.element e4 false, .element e8 false]) 2 { compressed := true }
      { (default : Vis ToyFloat) with r := .json ⟨⟨[.delim, .delim, .num ⟨9⟩, .num ⟨103⟩, .delim, .delim, .num ⟨9⟩, .num ⟨103⟩, .delim,
        .delim], .eof, 0⟩, []⟩ } = (.ok p2, s2) ∧
    p2.subsets.map reported = p1.subsets.map reported := by
  obtain ⟨is, y, h, hv⟩ := coded2
  have hval : EncodeSpec.values [(Spec.natBits 4 9 ++ Spec.natBits 8 103, is), (Spec.natBits 4 9 ++ Spec.natBits 8 103, is)] =
      [.uint 9, .float ⟨103⟩, .uint 9, .float ⟨103⟩] := by
    have : is.flatMap Datum.vals = [.uint 9, .float ⟨103⟩] := by
      rw [List.flatMap_def, hv]
      rfl
    simp [EncodeSpec.values, this]
  obtain ⟨p1, s1, p2, s2, h1, h2, h3⟩ := C98_agrees cfg_ok rfl rfl cfgJ_ok rfl rfl (ns := [.element e4 false, .element e8 false])
    (by decide) (plain 0) false true
    [(Spec.natBits 4 9 ++ Spec.natBits 8 103, is), (Spec.natBits 4 9 ++ Spec.natBits 8 103, is)] (by simpa using ⟨y, h⟩)
    (by
      rw [hval]
      intro v hv
      simp only [List.mem_cons, List.not_mem_nil, or_false] at hv
      rcases hv with rfl | rfl | rfl | rfl
      · exact ⟨trivial, by show 9 ≤ 2 ^ 53; decide⟩
      · exact ⟨trivial, trivial⟩
      · exact ⟨trivial, by show 9 ≤ 2 ^ 53; decide⟩
      · exact ⟨trivial, trivial⟩)
    [.num ⟨9⟩, .num ⟨103⟩, .num ⟨9⟩, .num ⟨103⟩]
    [.delim, .delim, .num ⟨9⟩, .num ⟨103⟩, .delim, .delim, .num ⟨9⟩, .num ⟨103⟩, .delim, .delim]
    (by rw [hval]; exact .cons (.uint 9) (.cons (.float _) (.cons (.uint 9) (.cons (.float _) .nil))))
    (by decide)
    { (default : Vis ToyFloat) with r := .bin ⟨(Spec.natBits 4 9 ++ Spec.natBits 8 103) ++ (Spec.natBits 4 9 ++ Spec.natBits 8 103), 0⟩ }
    { (default : Vis ToyFloat) with r := .json ⟨⟨[.delim, .delim, .num ⟨9⟩, .num ⟨103⟩, .delim, .delim, .num ⟨9⟩, .num ⟨103⟩, .delim,
        .delim], .eof, 0⟩, []⟩ } 0 0 .eof (by simp) rfl
  exact ⟨p1, p2, s1, s2, h1, h2, h3⟩

open ScalarExample PayloadExample in
/-- The hypotheses of `C98_document` are met too: there is a payload and its document. -/
example : ∃ (p1 : Payload ToyFloat) (s1 : Vis ToyFloat) (j : Doc ToyFloat),
    Vis.decodeSubsets cfg (.base (plain 0) [.element e4 false, .element e8 false]) 1 { compressed := false }
      { (default : Vis ToyFloat) with r := .bin ⟨Spec.natBits 4 9 ++ Spec.natBits 8 103, 0⟩ } = (.ok p1, s1) ∧
    Marshal.payload (fun _ => true) p1 = .ok j ∧ scalars j.toks = [.num ⟨9⟩, .num ⟨103⟩] := by
  have h : (match (Vis.decodeSubsets cfg (.base (plain 0) [.element e4 false, .element e8 false]) 1 { compressed := false }
      { (default : Vis ToyFloat) with r := .bin ⟨Spec.natBits 4 9 ++ Spec.natBits 8 103, 0⟩ }).1 with
    | .ok p1 => (match Marshal.payload (fun _ => true) p1 with
      | .ok j => decide (scalars j.toks = [.num ⟨9⟩, .num ⟨103⟩])
      | _ => false)
    | _ => false) = true := by decide +kernel
  split at h
  · rename_i p1 hp
    split at h
    · rename_i j hj
      exact ⟨p1, _, j, eq_of_fst hp, hj, of_decide_eq_true h⟩
    · cases h
  · cases h

end Gobufr
