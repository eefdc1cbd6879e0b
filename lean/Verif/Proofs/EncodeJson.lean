import Verif.Spec.EncodeJson
import Verif.Props.Encode
import Verif.Proofs.Binary

/-!
# Reading data written as flat JSON
-/

namespace Gobufr
namespace EncodeSpec
open Spec UnpackSpec Flat

variable {F τ τ' : Type} {c : VisCfg}

/-- Scalars before the reader. -/
def AtToks [GoFloat F] (e : Err) (l : List (Tok F)) (r : Reader F) : Prop :=
  ∃ ts pos, r = .json ⟨⟨ts, e, pos⟩, []⟩ ∧ scalars ts = l

theorem tokenLoop_scalars [GoFloat F] (e : Err) : ∀ (ts : List (Tok F)) {t : Tok F} {l : List (Tok F)}, scalars ts = t :: l →
    ∃ ts', FlatJson.tokenLoop e ts = (.ok t, ts') ∧ scalars ts' = l
  | [], _, _, h => by simp [scalars] at h
  | .delim :: ts, _, _, h => by
    have h : scalars ts = _ := h
    obtain ⟨ts', h1, h2⟩ := tokenLoop_scalars e ts h
    exact ⟨ts', h1, h2⟩
  | .null :: ts, _, _, h | .bool _ :: ts, _, _, h | .num _ :: ts, _, _, h | .str _ :: ts, _, _, h => by
    have h := List.cons.inj h
    exact ⟨ts, by rw [← h.1]; rfl, h.2⟩

theorem readWith_scalars [GoFloat F] {α : Type} (width : Int) (conv : Tok F → Outcome α) {e : Err} {ts l : List (Tok F)}
    {pos : Int} {t : Tok F} {a : α} (h : scalars ts = t :: l) (hc : conv t = .ok a) :
    ∃ ts', PeekJson.readWith width conv ⟨⟨ts, e, pos⟩, []⟩ = (.ok a, ⟨⟨ts', e, pos + width⟩, []⟩) ∧ scalars ts' = l := by
  obtain ⟨ts', h1, h2⟩ := tokenLoop_scalars e ts h
  refine ⟨ts', ?_, h2⟩
  have h3 : FlatJson.token (⟨ts, e, pos⟩ : FlatJson F) = (.ok t, ⟨ts', e, pos⟩) := by
    unfold FlatJson.token
    simp only [h1]
  have h4 : FlatJson.readWith width conv (⟨ts, e, pos⟩ : FlatJson F) = (.ok a, ⟨ts', e, pos + width⟩) := by
    unfold FlatJson.readWith
    rw [M.bind_ok h3, M.bind_ok (M.modify_apply _ _), M.lift_apply, hc]
  unfold PeekJson.readWith
  have h5 : (PeekJson.shift : M (PeekJson F) _) ⟨⟨ts, e, pos⟩, []⟩ = (.ok none, ⟨⟨ts, e, pos⟩, []⟩) := rfl
  rw [M.bind_ok h5]
  unfold PeekJson.onBase
  simp only [h4]

theorem reads_json [GoFloat F] [LawfulGoFloat F] (hu : c.unpacker = .json) {e : Err} :
    Reads (F := F) c (AtToks e) Scalar none := by
  intro info b vs h t r hat
  obtain ⟨ts, pos, rfl, hts⟩ := hat
  cases h with
  | @one v tok h1 h2 h3 h4 =>
    suffices hs : ∃ r', jsonUnpack info (.json ⟨⟨ts, e, pos⟩, []⟩) = (.ok v, r') ∧ AtToks e t r' by
      obtain ⟨r', h1, h2⟩ := hs
      refine ⟨.plain v, r', ?_, h2, rfl⟩
      rw [hu]
      simp only [Unpacker.unpack]
      rw [M.bind_ok h1]
      rfl
    have key : ∀ {α : Type} (width : Int) (conv : Tok F → Outcome α) (mb : M BitReader α) {a : α}, conv tok = .ok a →
        ∃ r', Reader.call mb (PeekJson.readWith width conv) (.json ⟨⟨ts, e, pos⟩, []⟩) = (.ok a, r') ∧ AtToks e t r' := by
      intro α width conv mb a ha
      obtain ⟨ts', h1, h2⟩ := readWith_scalars width conv (e := e) (pos := pos) hts ha
      refine ⟨.json ⟨⟨ts', e, pos + width⟩, []⟩, ?_, ts', _, rfl, h2⟩
      unfold Reader.call
      simp only [h1]
    unfold jsonUnpack
    cases h1 with
    | float f =>
      have h2 : info.unit = .numeric := h2
      rw [h2]
      obtain ⟨r', h5, h6⟩ := key info.nbits FlatJson.toFloat (BitReader.readNumber info.nbits) (a := f) rfl
      exact ⟨r', M.bind_ok h5, h6⟩
    | uint n =>
      have h3 : n ≤ 2 ^ 53 := h3
      obtain ⟨r', h5, h6⟩ := key info.nbits FlatJson.toUint (BitReader.readUint info.nbits) (a := n)
        (by show Outcome.ok _ = _; rw [LawfulGoFloat.truncUint_ofNat n h3])
      refine ⟨r', ?_, h6⟩
      rcases h2 with h2 | h2 <;> rw [h2] <;> exact M.bind_ok h5
    | int z =>
      have h2 : info.unit = .code := h2
      have h3 : z.natAbs ≤ 2 ^ 53 := h3
      rw [h2]
      obtain ⟨r', h5, h6⟩ := key info.nbits FlatJson.toInt (BitReader.readInt info.nbits) (a := z) (by
        show Outcome.ok _ = _
        by_cases h0 : 0 ≤ z
        · rw [if_pos h0, LawfulGoFloat.truncInt_ofNat z.toNat (by omega), Int.toNat_of_nonneg h0]
        · rw [if_neg h0, LawfulGoFloat.truncInt_ofInt z h3])
      exact ⟨r', M.bind_ok h5, h6⟩
    | text s =>
      have h2 : info.unit = .string := h2
      rw [h2]
      obtain ⟨r', h5, h6⟩ := key (info.nbits.tdiv 8 * 8) FlatJson.toBytes (BitReader.readBytes (info.nbits.tdiv 8)) (a := s) rfl
      exact ⟨r', M.bind_ok h5, h6⟩
    | @bits l bs hp =>
      have h2 : info.unit = .binary := h2
      rw [h2]
      obtain ⟨r', h5, h6⟩ := key info.nbits FlatJson.toBinary (BitReader.readBinary info.nbits) (a := some ⟨bs, l.length⟩) (by
        show (do let b ← newBinaryFromString (digits l); Outcome.ok (some b)) = _
        have : newBinaryFromString (digits l) = .ok ⟨bs, l.length⟩ := by
          rw [packed_inj hp (packed_packBits l)]
          exact newBinaryFromString_text l
        rw [this]
        rfl)
      exact ⟨r', M.bind_ok h5, h6⟩
    | missing => exact h4.elim

/-! ## Rewriting data -/

theorem Assocs.rewrite [GoFloat F] {W : Wire F τ} {W' : Wire F τ'} {f : PackingInfo F → List (Val F) → List τ'} {P : Val F → Prop}
    (h : ∀ info b vs, W info b vs → (∀ v ∈ vs, P v) → W' info (f info vs) vs) {d : Desc} {ws : List Int} {b : List τ}
    {is : List (Datum F)} (ha : Assocs W d ws b is) (hp : ∀ i ∈ is, ∀ v ∈ i.vals, P v) :
    Assocs W' d ws (is.flatMap fun i => f i.info i.vals) is := by
  induction ha with
  | nil => exact .nil
  | cons hw _ ih =>
    rw [List.flatMap_cons]
    exact .cons (h _ _ _ hw (hp _ List.mem_cons_self)) (ih fun i hi => hp i (List.mem_cons_of_mem _ hi))

theorem Zero.rewrite [GoFloat F] {W : Wire F τ} {W' : Wire F τ'} {f : PackingInfo F → List (Val F) → List τ'} {P : Val F → Prop}
    (h : ∀ info b vs, W info b vs → (∀ v ∈ vs, P v) → W' info (f info vs) vs) {compatible : Bool} {d : Desc} {b : List τ}
    {is : List (Datum F)} (ha : Zero W compatible d b is) (hp : ∀ i ∈ is, ∀ v ∈ i.vals, P v) :
    Zero W' compatible d (is.flatMap fun i => f i.info i.vals) is := by
  cases ha with
  | off h0 => exact .off h0
  | on h0 hw =>
    rw [List.flatMap_cons, List.flatMap_nil, List.append_nil]
    exact .on h0 (h _ _ _ hw (hp _ List.mem_cons_self))

/-- The same values written in another way. -/
theorem Coded.rewrite [GoFloat F] {W : Wire F τ} {W' : Wire F τ'} {f : PackingInfo F → List (Val F) → List τ'} {P : Val F → Prop}
    (h : ∀ info b vs, W info b vs → (∀ v ∈ vs, P v) → W' info (f info vs) vs) {compatible : Bool} {x y : Ctx} {ts : List Ast}
    {bits : List τ} {is : List (Datum F)} (hc : Coded W compatible x ts bits is y) (hp : ∀ i ∈ is, ∀ v ∈ i.vals, P v) :
    Coded W' compatible x ts (is.flatMap fun i => f i.info i.vals) is y := by
  induction hc with
  | nil => exact .nil
  | element he ha hw _ ih =>
    simp only [List.mem_append, or_imp, forall_and] at hp
    obtain ⟨⟨p1, p2⟩, p3⟩ := hp
    rw [List.flatMap_append, List.flatMap_append, List.flatMap_cons, List.flatMap_nil, List.append_nil]
    exact .element he (ha.rewrite h p1) (h _ _ _ hw (p2 _ List.mem_cons_self)) (ih p3)
  | absent _ ih => exact .absent (ih hp)
  | significance he hw _ ih =>
    rw [List.flatMap_cons]
    exact .significance he (h _ _ _ hw (hp _ List.mem_cons_self)) (ih fun i hi => hp i (List.mem_cons_of_mem _ hi))
  | sequence _ ih => exact .sequence (ih hp)
  | notPresent _ ih => exact .notPresent (ih hp)
  | fixed _ ih => exact .fixed (ih hp)
  | delayed _ h2 h3 h4 h5 _ ih1 ih2 =>
    simp only [List.mem_append, or_imp, forall_and] at hp
    rw [List.flatMap_append]
    exact .delayed (ih1 hp.1) h2 h3 h4 h5 (ih2 hp.2)
  | op201 _ ih => exact .op201 (ih hp)
  | op202 _ ih => exact .op202 (ih hp)
  | op207 _ ih => exact .op207 (ih hp)
  | op208 _ ih => exact .op208 (ih hp)
  | op203end hy _ ih => exact .op203end hy (ih hp)
  | op204 hy _ ih => exact .op204 hy (ih hp)
  | op204end hy hn _ ih => exact .op204end hy hn (ih hp)
  | op205 hw _ ih =>
    rw [List.flatMap_cons]
    exact .op205 (h _ _ _ hw (hp _ List.mem_cons_self)) (ih fun i hi => hp i (List.mem_cons_of_mem _ hi))
  | op206 hw _ ih =>
    rw [List.flatMap_cons]
    exact .op206 (h _ _ _ hw (hp _ List.mem_cons_self)) (ih fun i hi => hp i (List.mem_cons_of_mem _ hi))
  | op235 _ ih => exact .op235 (ih hp)
  | op237end _ ih => exact .op237end (ih hp)
  | bitmap hd hm hz _ hb _ ih1 ih2 =>
    simp only [List.mem_append, or_imp, forall_and] at hp
    obtain ⟨⟨p1, p2⟩, p3⟩ := hp
    rw [List.flatMap_append, List.flatMap_append]
    exact .bitmap hd hm (hz.rewrite h p1) (ih1 p2) hb (ih2 p3)
  | recall hd hz _ ih =>
    simp only [List.mem_append, or_imp, forall_and] at hp
    rw [List.flatMap_append]
    exact .recall hd (hz.rewrite h hp.1) (ih hp.2)
  | assessment h0 hz _ _ hc hb hne hn _ hl _ ih1 ih2 ih3 ih4 =>
    simp only [List.mem_append, or_imp, forall_and] at hp
    obtain ⟨⟨⟨⟨p1, p2⟩, p3⟩, p4⟩, p5⟩ := hp
    rw [List.flatMap_append, List.flatMap_append, List.flatMap_append, List.flatMap_append]
    exact .assessment h0 (hz.rewrite h p1) (ih1 p2) (ih2 p3) hc hb hne hn (ih3 p4) hl (ih4 p5)
  | marker ht hs h0 he hw _ ih =>
    rw [List.flatMap_cons]
    exact .marker ht hs h0 he (h _ _ _ hw (hp _ List.mem_cons_self)) (ih fun i hi => hp i (List.mem_cons_of_mem _ hi))

theorem Assocs.measure [GoFloat F] {W : Wire F τ} {g : PackingInfo F → List (Val F) → Int}
    (h : ∀ info b vs, W info b vs → (b.length : Int) = g info vs) {d : Desc} {ws : List Int} {b : List τ}
    {is : List (Datum F)} (ha : Assocs W d ws b is) : (b.length : Int) = (is.map fun i => g i.info i.vals).sum := by
  induction ha with
  | nil => rfl
  | cons hw _ ih =>
    rw [List.length_append, List.map_cons, List.sum_cons, ← ih, ← h _ _ _ hw]
    push_cast
    rfl

theorem Zero.measure [GoFloat F] {W : Wire F τ} {g : PackingInfo F → List (Val F) → Int}
    (h : ∀ info b vs, W info b vs → (b.length : Int) = g info vs) {compatible : Bool} {d : Desc} {b : List τ}
    {is : List (Datum F)} (ha : Zero W compatible d b is) : (b.length : Int) = (is.map fun i => g i.info i.vals).sum := by
  cases ha with
  | off h0 => rfl
  | on h0 hw =>
    rw [List.map_cons, List.sum_cons, List.map_nil, List.sum_nil, ← h _ _ _ hw, Int.add_zero]

/-- The number of symbols written. -/
theorem Coded.measure [GoFloat F] {W : Wire F τ} {g : PackingInfo F → List (Val F) → Int}
    (h : ∀ info b vs, W info b vs → (b.length : Int) = g info vs) {compatible : Bool} {x y : Ctx} {ts : List Ast}
    {bits : List τ} {is : List (Datum F)} (hc : Coded W compatible x ts bits is y) :
    (bits.length : Int) = (is.map fun i => g i.info i.vals).sum := by
  induction hc with
  | nil => rfl
  | element he ha hw _ ih =>
    simp only [List.length_append, List.map_append, List.sum_append, List.map_cons, List.sum_cons, List.map_nil, List.sum_nil,
      ← ih, ← ha.measure h, ← h _ _ _ hw]
    push_cast
    omega
  | significance _ hw _ ih | op205 hw _ ih | op206 hw _ ih | marker _ _ _ _ hw _ ih =>
    simp only [List.length_append, List.map_cons, List.sum_cons, ← ih, ← h _ _ _ hw]
    push_cast
    omega
  | delayed _ _ _ _ _ _ ih1 ih2 =>
    simp only [List.length_append, List.map_append, List.sum_append, ← ih1, ← ih2]
    push_cast
    omega
  | bitmap _ _ hz _ _ _ ih1 ih2 =>
    simp only [List.length_append, List.map_append, List.sum_append, ← ih1, ← ih2, ← hz.measure h]
    push_cast
    omega
  | recall _ hz _ ih =>
    simp only [List.length_append, List.map_append, List.sum_append, ← ih, ← hz.measure h]
    push_cast
    omega
  | assessment _ hz _ _ _ _ _ _ _ _ _ ih1 ih2 ih3 ih4 =>
    simp only [List.length_append, List.map_append, List.sum_append, ← ih1, ← ih2, ← ih3, ← ih4, ← hz.measure h]
    push_cast
    omega
  | absent _ ih | sequence _ ih | notPresent _ ih | fixed _ ih | op201 _ ih | op202 _ ih | op207 _ ih | op208 _ ih
  | op203end _ _ ih | op204 _ _ ih | op204end _ _ _ ih | op235 _ ih | op237end _ ih => exact ih

/-- Every item was written. -/
theorem Coded.each [GoFloat F] {W : Wire F τ} {compatible : Bool} {x y : Ctx} {ts : List Ast} {bits : List τ}
    {is : List (Datum F)} (hc : Coded W compatible x ts bits is y) : ∀ i ∈ is, ∃ b, W i.info b i.vals := by
  have hassoc : ∀ {d : Desc} {ws : List Int} {b : List τ} {is : List (Datum F)}, Assocs W d ws b is →
      ∀ i ∈ is, ∃ b, W i.info b i.vals := by
    intro d ws b is ha
    induction ha with
    | nil => exact fun _ h => by cases h
    | cons hw _ ih =>
      intro i hi
      rcases List.mem_cons.1 hi with rfl | hi
      · exact ⟨_, hw⟩
      · exact ih i hi
  have hzero : ∀ {d : Desc} {b : List τ} {is : List (Datum F)}, Zero W compatible d b is → ∀ i ∈ is, ∃ b, W i.info b i.vals := by
    intro d b is ha i hi
    cases ha with
    | off _ => cases hi
    | on _ hw =>
      rw [List.mem_singleton] at hi
      subst hi
      exact ⟨_, hw⟩
  induction hc with
  | nil => exact fun _ h => by cases h
  | element he ha hw _ ih =>
    simp only [List.mem_append, List.mem_singleton, or_imp, forall_and, forall_eq]
    exact ⟨⟨hassoc ha, _, hw⟩, ih⟩
  | significance _ hw _ ih | op205 hw _ ih | op206 hw _ ih | marker _ _ _ _ hw _ ih =>
    simp only [List.mem_cons, or_imp, forall_and, forall_eq]
    exact ⟨⟨_, hw⟩, ih⟩
  | delayed _ _ _ _ _ _ ih1 ih2 =>
    simp only [List.mem_append, or_imp, forall_and]
    exact ⟨ih1, ih2⟩
  | bitmap _ _ hz _ _ _ ih1 ih2 =>
    simp only [List.mem_append, or_imp, forall_and]
    exact ⟨⟨hzero hz, ih1⟩, ih2⟩
  | recall _ hz _ ih =>
    simp only [List.mem_append, or_imp, forall_and]
    exact ⟨hzero hz, ih⟩
  | assessment _ hz _ _ _ _ _ _ _ _ _ ih1 ih2 ih3 ih4 =>
    simp only [List.mem_append, or_imp, forall_and]
    exact ⟨⟨⟨⟨hzero hz, ih1⟩, ih2⟩, ih3⟩, ih4⟩
  | absent _ ih | sequence _ ih | notPresent _ ih | fixed _ ih | op201 _ ih | op202 _ ih | op207 _ ih | op208 _ ih
  | op203end _ _ ih | op204 _ _ ih | op204end _ _ _ ih | op235 _ ih | op237end _ ih => exact ih

end EncodeSpec
end Gobufr
