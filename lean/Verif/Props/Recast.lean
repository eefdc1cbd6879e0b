import Verif.Proofs.Recast

/-!
# The same message, compressed or not

C117: a message can be sent in the other form, and says the same.
-/

namespace Gobufr
open Spec Layout Flat EncodeSpec UnpackSpec

variable {F : Type}

/-- Wherever the bytes stand in the input, they are read as a message with the head of `m` and the values `xs`, whose data are
compressed or not as said and take `n` bits, and whose lengths are right. -/
def ReadsLike [GoFloat F] (c : FacCfg) (bs : List UInt8) (m : Message F) (compressed : Bool) (n : Nat) (xs : Grid F) : Prop :=
  ∀ (junk rest : List UInt8) (q : Int) (s : Fac F), ¬ signature <:+: junk →
    s.r = .bin ⟨BitReader.bitsOfBytes (junk ++ bs ++ rest), 8 * q⟩ →
    ∃ m' s' p', Runtime.run c s = (.ok m', s') ∧
      s'.r = .bin ⟨BitReader.bitsOfBytes rest, 8 * (q + junk.length + bs.length)⟩ ∧ SameHead m m' ∧
      fieldValue m' 3 "isCompressed" = some (.bool compressed) ∧
      fieldValue m' 0 "totalLengthInBytes" = some (.uint (bs.length % 2 ^ 24)) ∧
      fieldValue m' 4 "lengthInBytes" = some (.uint (4 + (n + 7) / 8)) ∧
      payloadOf m' = some p' ∧ p'.subsets.map reported = xs

theorem says_flag {d : Draft} {m : Message F} (h : d.Says m) {b : Bool} (hb : d.head 3 "isCompressed" = if b then 1 else 0) :
    fieldValue m 3 "isCompressed" = some (.bool b) := by
  obtain ⟨v, h1, b', h2, h3⟩ := h.fields description (by simp [Draft.sections, Layout.sections]) (fixed "isCompressed" 1)
    (by decide) 1 rfl (by decide)
  have h2 : natBits 1 (d.head 3 "isCompressed") = [b'] := h2
  have h3 : v = .bool b' := h3
  rw [hb] at h2
  have : b' = b := by cases b <;> cases h2 <;> rfl
  rw [← this, ← h3]
  exact h1

/-- What is left to do once there is a draft in the other form. -/
theorem reads_like [GoFloat F] {c : FacCfg} {d : Draft} {m : Message F} (h : d.Says m) {flag : Bool} {data : List Bool}
    (hd' : (recast d (if flag then 1 else 0) data).Sound) {xs : Grid F} {bs : List UInt8}
    (hbs : BitReader.bitsOfBytes bs = (recast d (if flag then 1 else 0) data).bits)
    (hrun : ∀ (junk rest : List UInt8) (q : Int) (s : Fac F), ¬ signature <:+: junk →
      s.r = .bin ⟨BitReader.bitsOfBytes (junk ++ bs ++ rest), 8 * q⟩ → ∃ m' s' p', Runtime.run c s = (.ok m', s') ∧
      s'.r = .bin ⟨BitReader.bitsOfBytes rest, 8 * (q + junk.length + bs.length)⟩ ∧
      (recast d (if flag then 1 else 0) data).Says m' ∧ payloadOf m' = some p' ∧ p'.subsets.map reported = xs) :
    ReadsLike c bs m flag data.length xs := by
  intro junk rest q s hj hs
  obtain ⟨m', s', p', h1, h2, h3, h4, h5⟩ := hrun junk rest q s hj hs
  refine ⟨m', s', p', h1, h2, recast_says h h3, says_flag h3 rfl, ?_, ?_, h4, h5⟩
  · rw [← recast_bits hbs]
    exact says_uint hd' h3 (x := indicator) (by simp [Draft.sections, Layout.sections]) (f := fixed "totalLengthInBytes" 24)
      (by decide) rfl (by decide)
  · exact says_uint hd' h3 (x := Layout.data) (by simp [Draft.sections, Layout.sections]) (f := fixed "lengthInBytes" 24)
      (by decide) rfl (by decide)

/-- **C117**, from compressed to uncompressed: if a compressed message is decoded to values each of which can be written in its
packing, and the subsets agree in their bitmaps, and section 4 has room for the widths of all values, then there is an
uncompressed message that says the same. -/
theorem C117_expand [GoFloat F] [LawfulGoFloat F] (c : FacCfg) (hc : c.inputType = .binary) (s s' : Fac F)
    (m : Message F) (input : List UInt8) (q : Int) (hs : s.r = .bin ⟨BitReader.bitsOfBytes input, 8 * q⟩)
    (h : Runtime.run c s = (.ok m, s')) (hcomp : fieldValue m 3 "isCompressed" = some (.bool true))
    (hsub : fieldValue m 3 "nSubsets" ≠ some (.uint 0)) (hloc : LocalFits m)
    {ns : List Ast} (hns : Means c m ns) (hsim : simpleL true ns = true) (hreg : regularL ns = true)
    (p : Payload F) (hp : payloadOf m = some p) (xs : Grid F) (hxs : p.subsets.map reported = xs)
    (hcol : ∀ x ∈ xs, ∀ d info v, some (d, info, v) ∈ x → ProperColumn info)
    (hw : ∀ x ∈ xs, ∀ d info v, some (d, info, v) ∈ x → ∃ bits, Single info bits [v])
    (hf : SameFactors xs) (hroom : Room (widths xs)) :
    ∃ bs, ReadsLike c bs m false (widths xs) xs := by
  obtain ⟨d, junk, bs, rest, p', k, is, k1, k2, k3, k4, hk, k5, k6, k7, -⟩ := C100_compressed_partial c hc s s' m input q hs h hcomp
    hsub hloc hns hsim fun p' hp' => by
      rw [hp] at hp'
      cases hp'
      exact fun sub hsub => hcol _ (hxs ▸ List.mem_map.2 ⟨sub, hsub, rfl⟩)
  rw [hp] at k6
  cases k6
  rw [hxs] at k7
  obtain ⟨y, hy⟩ := k5.coded
  have hlen : ∀ i ∈ is, i.vals.length = k := hy.every (Q := fun _ vs => vs.length = k) fun _ _ _ hw => Lenient.length hw
  have hcode : ∀ is' ∈ (List.range k).map (slice is), ∃ b, Coded (SizedWire (fun info _ => info.nbits.toNat) Single) c.compatible {} ns b is' y := by
    intro is' hi
    obtain ⟨j, hj, rfl⟩ := List.mem_map.1 hi
    have hj := List.mem_range.1 hj
    refine slice_coded hy hreg hlen (k7 ▸ hf) hj fun i hi => ?_
    obtain ⟨b, hb⟩ := hw (written is j) (k7 ▸ List.mem_map.2 ⟨j, List.mem_range.2 hj, rfl⟩) i.desc i.info _
      (List.mem_map.2 ⟨i, hi, rfl⟩)
    exact ⟨b, hb, hb.length⟩
  obtain ⟨data, h1, h2⟩ := exists_all hcode
  have hlen' : (data.flatMap Prod.fst).length = widths xs := by
    have e : xs = data.map fun z => written z.2 0 := by
      have := congrArg (List.map fun is => written is 0) h1
      simp only [List.map_map, Function.comp_def, written_slice] at this
      rw [k7, ← this]
    rw [e, List.length_flatMap, widths, List.map_map]
    congr 1
    apply List.map_congr_left
    intro z hz
    rw [sized_length (h2 z hz)]
    simp [written, Function.comp_def]
  rw [← hlen'] at hroom ⊢
  have hd' := recast_sound k2 (flag := 0) (by decide) hroom
  obtain ⟨bs', hbs'⟩ := draft_bytes hd'
  refine ⟨bs', reads_like (flag := false) k3 hd' hbs' fun junk rest q s hj hs => ?_⟩
  obtain ⟨g, root, hg, hroot⟩ := k4
  obtain ⟨m', s', p', g1, g2, g3, g4, g5⟩ := C89_uncompressed c hc _ hd' g hg root ns hroot data rfl
    (fun x hx => ⟨y, (h2 x hx).mono fun _ _ _ q => q.1⟩) rfl (by
      show d.head 3 "nSubsets" = _
      rw [k5.number]
      have := congrArg List.length h1
      simpa using this.symm) bs' hbs' junk rest hj q s hs
  refine ⟨m', s', p', g1, g2, g3, g4, g5.trans ?_⟩
  have := congrArg (List.map fun is => written is 0) h1
  simp only [List.map_map, Function.comp_def, written_slice] at this
  rw [k7, ← this]

/-- **C117**, from uncompressed to compressed: if an uncompressed message is decoded to subsets that have the same elements and
replication factors, and there is a column for the values of every element, and section 4 has room for these columns, then
there is a compressed message that says the same. -/
theorem C117_compress [GoFloat F] [LawfulGoFloat F] (c : FacCfg) (hc : c.inputType = .binary) (s s' : Fac F)
    (m : Message F) (input : List UInt8) (q : Int) (hs : s.r = .bin ⟨BitReader.bitsOfBytes input, 8 * q⟩)
    (h : Runtime.run c s = (.ok m, s')) (hcomp : fieldValue m 3 "isCompressed" = some (.bool false)) (hloc : LocalFits m)
    {ns : List Ast} (hns : Means c m ns) (hsim : simpleL true ns = true) (hreg : regularL ns = true)
    (p : Payload F) (hp : payloadOf m = some p) (xs : Grid F) (hxs : p.subsets.map reported = xs) (h0 : xs ≠ [])
    (hsh : SameShape xs) (hf : SameFactors xs) (size : PackingInfo F → List (Val F) → Nat)
    (hw : ∀ x ∈ xs, ∀ (i : Nat) (d : NodeDesc) (info : PackingInfo F) (v : Val F), x[i]? = some (some (d, info, v)) →
      ∃ bits, Shared xs.length info bits (valuesAt xs i) ∧ bits.length = size info (valuesAt xs i))
    (hroom : Room (columns size xs)) :
    ∃ bs, ReadsLike c bs m true (columns size xs) xs := by
  obtain ⟨d, junk, bs, rest, p', data, k1, k2, k3, k4, k5, k6, k7, -⟩ := C100_uncompressed_partial c hc s s' m input q hs h hcomp
    hloc hns hsim fun p' hp' sub hsub d info v hv => by
      rw [hp] at hp'
      cases hp'
      obtain ⟨i, hi⟩ := List.mem_iff_getElem?.1 hv
      obtain ⟨bits, q, -⟩ := hw _ (hxs ▸ List.mem_map.2 ⟨sub, hsub, rfl⟩) i d info v hi
      exact Shared.proper q v
  rw [hp] at k6
  cases k6
  rw [hxs] at k7
  match data, k5, k7 with
  | [], _, k7 => exact absurd k7 h0
  | (b0, is) :: data, k5, k7 =>
    obtain ⟨y, h1⟩ := k5.coded _ List.mem_cons_self
    have hone : ∀ i ∈ is, ∃ v, i.vals = [v] := h1.every (Q := fun _ vs => ∃ v, vs = [v]) (by
      intro info b vs q
      cases q <;> exact ⟨_, rfl⟩)
    obtain ⟨bits, h2⟩ := stack_coded (W' := SizedWire size (Shared xs.length)) h1 hreg hone k7 hf fun i d info v hi => by
      obtain ⟨b, q⟩ := hw _ (by rw [k7]; exact List.mem_cons_self) i d info v hi
      exact ⟨b, q⟩
    have hlen : bits.length = columns size xs := by
      rw [sized_length h2, columns]
      congr 1
      rw [show xs.headD [] = written is 0 by rw [k7]; rfl]
      apply List.ext_getElem?
      intro i
      simp only [List.getElem?_map, List.getElem?_mapIdx, stack, written, Option.map_map]
      cases is[i]? <;> rfl
    have hl : xs.length = (data.length + 1) := by rw [k7]; simp
    rw [← hlen] at hroom ⊢
    have hd' := recast_sound k2 (flag := 1) (by decide) hroom
    obtain ⟨bs', hbs'⟩ := draft_bytes hd'
    refine ⟨bs', reads_like (flag := true) k3 hd' hbs' fun junk rest q s hj hs => ?_⟩
    obtain ⟨g, root, hg, hroot⟩ := k4
    obtain ⟨m', s', p', g1, g2, g3, g4, g5⟩ := C89_compressed c hc _ hd' g hg root ns hroot xs.length (by omega) (stack is xs) y
      (h2.mono fun _ _ _ q => q.1) rfl (by
        show d.head 3 "nSubsets" = _
        rw [k5.number, hl]
        rfl) bs' hbs' junk rest hj q s hs
    exact ⟨m', s', p', g1, g2, g3, g4, g5.trans (stack_written k7 hsh)⟩

theorem flatMap_length {α β : Type} {f : α → List β} {w : Nat} : ∀ {l : List α}, (∀ x ∈ l, (f x).length = w) →
    (l.flatMap f).length = l.length * w
  | [], _ => by simp
  | a :: l, h => by
    rw [List.flatMap_cons, List.length_append, h a List.mem_cons_self, flatMap_length fun x hx => h x (List.mem_cons_of_mem _ hx),
      List.length_cons, Nat.succ_mul]
    omega

/-- C117. There are columns for all numbers of up to 62 bits, missing or not, and for all texts of up to 63 characters, and
their sizes depend on the width and the number of subsets only. -/
theorem C117_columns [GoFloat F] {info : PackingInfo F} {n k : Nat} :
    (∀ raws : List Nat, Plain info.unit → info.nbits = n → 1 ≤ n → n ≤ 62 → raws.length = k → (∀ r ∈ raws, r < 2 ^ n) →
      ∃ bits, Shared k info bits (raws.map (UnpackSpec.value info n)) ∧ bits.length = n + 6 + k * (n + 1)) ∧
    ∀ strs : List (List UInt8), info.unit = .string → info.nbits = 8 * n → 1 ≤ n → n ≤ 63 → strs.length = k →
      (∀ x ∈ strs, x.length = n) → ∃ bits, Shared k info bits (strs.map .bytes) ∧ bits.length = 8 * n + 6 + k * (8 * n) := by
  constructor
  · intro raws hu hn h1 h62 hl hr
    have hlt : ∀ r ∈ raws, r < 2 ^ (n + 1) ∧ r ≠ 2 ^ (n + 1) - 1 := by
      intro r h
      have := hr r h
      rw [Nat.pow_succ]
      omega
    have h0 : ¬ UnpackSpec.AllOnes n 0 := by
      intro h
      have := (natBits_ones n 0 (Nat.two_pow_pos n)).1 h.2
      have h2 : 2 ^ 1 ≤ 2 ^ n := Nat.pow_le_pow_right (by decide) h1
      omega
    refine ⟨_, (Shared.increments (n := n) (base := 0) (w := n + 1) (incs := raws) hu hn h1 (by omega) (Nat.two_pow_pos n)
      (by omega) (by omega) ?_ h0 hl).cast ?_, ?_⟩
    · intro r h
      exact ⟨(hlt r h).1, .inr (by simpa using hr r h)⟩
    · apply List.map_congr_left
      intro r h
      rw [if_neg fun e => (hlt r h).2 ((natBits_ones _ _ (hlt r h).1).1 e), Nat.zero_add]
    · rw [UnpackSpec.column, List.length_append, List.length_append, natBits_length, natBits_length,
        flatMap_length (w := n + 1) (by simp), hl]
  · intro strs hu hn h1 h63 hl hs
    refine ⟨_, .texts hu hn (by omega) (by omega) hs hl, ?_⟩
    have : ∀ s : List UInt8, (s.flatMap byteBits).length = 8 * s.length := BitReader.bitsOfBytes_length
    rw [List.length_append, List.length_append, natBits_length, this, flatMap_length (w := 8 * n), hl, List.length_replicate]
    intro x hx
    rw [this, hs x hx]

/-! ## Two messages -/

open DecodedExample MessageExample AcceptExample in
/-- The hypotheses of `C117_expand` are met: two temperatures, the second of them missing. -/
example : ∃ m s' bs, Runtime.run cfg (input (bytes4 ++ [7])) = (.ok m, s') ∧
    ReadsLike cfg bs m false 16 [[item (.float ⟨103⟩)], [item .nil]] := by
  have hv := run4_facts
  split at hv
  case h_2 => cases hv
  case h_1 m s' hr =>
    obtain ⟨h1, h0, h2, h3, p, h4, h5⟩ := facts_means hv
    have hmem : ∀ x ∈ [[item (.float ⟨103⟩)], [item .nil]], ∀ d info v, some (d, info, v) ∈ x →
        (info = ⟨.numeric, 0, ⟨0⟩, 8⟩ ∧ (v = .float ⟨103⟩ ∨ v = .nil)) ∧ d = ⟨some ⟨12001, .b temperature⟩, false⟩ := by
      intro x hx d info v hi
      simp only [List.mem_cons, List.not_mem_nil, or_false] at hx
      rcases hx with rfl | rfl <;> simp only [item, List.mem_cons, List.not_mem_nil, or_false, Option.some.injEq, Prod.mk.injEq] at hi <;>
        obtain ⟨rfl, rfl, rfl⟩ := hi <;> simp
    obtain ⟨bs, hbs⟩ := C117_expand cfg rfl _ s' m _ 0 rfl hr h1 h0 h2 h3 (by decide) (by decide) p h4 _ h5
      (fun x hx d info v hi => by
        obtain ⟨⟨rfl, -⟩, -⟩ := hmem x hx d info v hi
        exact ⟨by decide, by decide⟩)
      (fun x hx d info v hi => by
        obtain ⟨⟨rfl, e⟩, -⟩ := hmem x hx d info v hi
        rcases e with rfl | rfl
        · exact ⟨_, Single.number (n := 8) (raw := 103) (.inl rfl) rfl (by decide) (by decide)⟩
        · exact ⟨_, Single.number (n := 8) (raw := 255) (.inl rfl) rfl (by decide) (by decide)⟩)
      (fun x hx i d info v hi hd => by
        obtain ⟨-, e⟩ := hmem x hx _ _ _ (List.mem_of_getElem? hi)
        cases e
        exact absurd hd (by decide))
      (by unfold Room; decide)
    exact ⟨m, s', bs, hr, hbs⟩

open DecodedExample MessageExample AcceptExample in
/-- Those of `C117_compress`. -/
example : ∃ m s' bs, Runtime.run cfg (input ([0x42, 0x55] ++ (body3 ++ stop) ++ [1, 2, 3])) = (.ok m, s') ∧
    ReadsLike cfg bs m true 32 [[item (.float ⟨18⟩)], [item (.float ⟨19⟩)]] := by
  have hv := run3_facts
  split at hv
  case h_2 => cases hv
  case h_1 m s' hr =>
    obtain ⟨h1, -, h2, h3, p, h4, h5⟩ := facts_means hv
    have hmem : ∀ x ∈ [[item (.float ⟨18⟩)], [item (.float ⟨19⟩)]], ∀ (i : Nat) d info v, x[i]? = some (some (d, info, v)) →
        i = 0 ∧ info = ⟨.numeric, 0, ⟨0⟩, 8⟩ ∧ d = ⟨some ⟨12001, .b temperature⟩, false⟩ := by
      intro x hx i d info v hi
      simp only [List.mem_cons, List.not_mem_nil, or_false] at hx
      match i with
      | 0 => rcases hx with rfl | rfl <;> cases hi <;> simp
      | i + 1 => rcases hx with rfl | rfl <;> simp at hi
    obtain ⟨bs, hbs⟩ := C117_compress cfg rfl _ s' m _ 0 rfl hr h1 h2 h3 (by decide) (by decide) p h4 _ h5 (by simp)
      (fun x hx x' hx' => by
        simp only [List.mem_cons, List.not_mem_nil, or_false] at hx hx'
        rcases hx with rfl | rfl <;> rcases hx' with rfl | rfl <;> rfl)
      (fun x hx i d info v hi hd => by
        obtain ⟨-, -, e⟩ := hmem x hx _ _ _ _ hi
        cases e
        exact absurd hd (by decide))
      (fun info vs => info.nbits.toNat + 6 + vs.length * (info.nbits.toNat + 1))
      (fun x hx i d info v hi => by
        obtain ⟨rfl, rfl, -⟩ := hmem x hx _ _ _ _ hi
        exact (C117_columns (n := 8) (k := 2)).1 [18, 19] (.inl rfl) rfl (by decide) (by decide) rfl (by decide))
      (by unfold Room; decide)
    exact ⟨m, s', bs, hr, hbs⟩

end Gobufr
