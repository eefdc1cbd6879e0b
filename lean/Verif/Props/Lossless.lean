import Verif.Spec.Lossless
import Verif.Props.Accuracy
import Verif.Props.Decoded

/-!
# Decoding loses nothing

C121: messages that are decoded to the same values carry the same data.
-/

namespace Gobufr
open Spec UnpackSpec AccuracySpec EncodeSpec

variable {τ : Type}

/-- C121, the property: bits that are decoded to the same value are the same. -/
def C121_statement : Prop := ∀ (info : PackingInfo Double) (b b' t t' : Bits) (p p' : Int) (v : Val Double), b.length = b'.length →
  uncompressUnpack info (.bin ⟨b ++ t, p⟩) = (.ok v, .bin ⟨t, p + b.length⟩) →
  uncompressUnpack info (.bin ⟨b' ++ t', p'⟩) = (.ok v, .bin ⟨t', p' + b'.length⟩) → b = b'

theorem packed_bits : ∀ {bs : List UInt8} {l l' : List Bool}, Packed l bs → Packed l' bs → l.length = l'.length → l = l'
  | [], _, _, h, h', _ => h.trans (Eq.symm h')
  | _ :: bs, l, l', ⟨_, h1, h2⟩, ⟨_, h1', h2'⟩, hl => by
    have e1 : l.take 8 = l'.take 8 := by
      have hv := h1.symm.trans h1'
      have hl : (l.take 8).length = (l'.take 8).length := by rw [List.length_take, List.length_take, hl]
      rw [← natBits_bitsVal (l.take 8), ← natBits_bitsVal (l'.take 8), hl, hv]
    have e2 := packed_bits h2 h2' (by rw [List.length_drop, List.length_drop, hl])
    rw [← List.take_append_drop 8 l, e1, e2, List.take_append_drop]

/-- The bits of a value are determined by it. -/
theorem single_unique {info : PackingInfo Double} (hl : Lossless info) {b b' : List Bool} {vs : List (Val Double)} (h : Single info b vs)
    (h' : Single info b' vs) : b = b' := by
  cases h with
  | @number n raw hu hn h64 hr =>
    generalize hvs : [value info n raw] = vs at h'
    cases h' with
    | @number n' raw' hu' hn' h64' hr' =>
      obtain rfl : n = n' := by omega
      injection hvs with hv
      by_cases hnum : info.unit = .numeric
      · rw [Lossless, hnum] at hl
        obtain ⟨l1, l2, l3, ref, l4, l5⟩ := hl
        rw [C120_injective info n ref hu (fun _ => ⟨l5, l2, l3, by omega, l4⟩) raw raw' hr hr' hv]
      · rw [C120_injective info n 0 hu (fun h => absurd h hnum) raw raw' hr hr' hv]
    | text hs _ => rw [hs] at hu; rcases hu with h | h | h <;> cases h
    | signed hs => rw [hs] at hu; rcases hu with h | h | h <;> cases h
    | skipped hs => rw [hs] at hu; rcases hu with h | h | h <;> cases h
  | @text s hu hn =>
    generalize hvs : [Val.bytes s] = vs at h'
    cases h' with
    | number hs => rw [hu] at hs; rcases hs with h | h | h <;> cases h
    | text hs _ => cases hvs; rfl
    | signed hs => rw [hu] at hs; cases hs
    | skipped hs => rw [hu] at hs; cases hs
  | signed hu => rw [Lossless, hu] at hl; exact hl.elim
  | @skipped _ bs hu hn hp =>
    generalize hvs : [Val.binary (some ⟨bs, (b.length : Int)⟩)] = vs at h'
    cases h' with
    | number hs => rw [hu] at hs; rcases hs with h | h | h <;> cases h
    | text hs _ => rw [hu] at hs; cases hs
    | signed hs => rw [hu] at hs; cases hs
    | @skipped l' bs' hs hn' hp' =>
      injection hvs with hv
      injection hv with hv
      injection hv with hv
      injection hv with e1 e2
      subst e1
      exact packed_bits hp hp' (by omega)

/-- A data section in pieces, one for each item. -/
theorem Coded.pieces [GoFloat F] {W : Wire F τ} {compatible : Bool} {x y : Ctx} {ts : List Ast} {bits : List τ} {is : List (Datum F)}
    (hc : Coded W compatible x ts bits is y) : ∃ bss : List (List τ), bits = bss.flatten ∧
      List.Forall₂ (fun (i : Datum F) b => W i.info b i.vals) is bss := by
  have app : ∀ {is is' : List (Datum F)} {b b' : List τ},
      (∃ bss : List (List τ), b = bss.flatten ∧ List.Forall₂ (fun (i : Datum F) b => W i.info b i.vals) is bss) →
      (∃ bss : List (List τ), b' = bss.flatten ∧ List.Forall₂ (fun (i : Datum F) b => W i.info b i.vals) is' bss) →
      ∃ bss : List (List τ), b ++ b' = bss.flatten ∧ List.Forall₂ (fun (i : Datum F) b => W i.info b i.vals) (is ++ is') bss := by
    rintro is is' b b' ⟨l, rfl, h⟩ ⟨l', rfl, h'⟩
    exact ⟨l ++ l', by rw [List.flatten_append], List.rel_append h h'⟩
  have one : ∀ {i : Datum F} {b : List τ}, W i.info b i.vals →
      ∃ bss : List (List τ), b = bss.flatten ∧ List.Forall₂ (fun (i : Datum F) b => W i.info b i.vals) [i] bss :=
    fun {i b} h => ⟨[b], by simp, .cons h .nil⟩
  have none : ∃ bss : List (List τ), [] = bss.flatten ∧ List.Forall₂ (fun (i : Datum F) b => W i.info b i.vals) [] bss :=
    ⟨[], rfl, .nil⟩
  have hassoc : ∀ {d : Desc} {ws : List Int} {b : List τ} {is : List (Datum F)}, Assocs W d ws b is →
      ∃ bss : List (List τ), b = bss.flatten ∧ List.Forall₂ (fun (i : Datum F) b => W i.info b i.vals) is bss := by
    intro d ws b is ha
    induction ha with
    | nil => exact none
    | cons hw _ ih => exact app (is := [_]) (one hw) ih
  have hzero : ∀ {d : Desc} {b : List τ} {is : List (Datum F)}, Zero W compatible d b is →
      ∃ bss : List (List τ), b = bss.flatten ∧ List.Forall₂ (fun (i : Datum F) b => W i.info b i.vals) is bss := by
    intro d b is ha
    cases ha with
    | off _ => exact none
    | on _ hw => exact one hw
  induction hc with
  | nil => exact none
  | element he ha hw _ ih => exact app (app (hassoc ha) (one hw)) ih
  | significance _ hw _ ih | op205 hw _ ih | op206 hw _ ih | marker _ _ _ _ hw _ ih => exact app (is := [_]) (one hw) ih
  | delayed _ _ _ _ _ _ ih1 ih2 => exact app ih1 ih2
  | bitmap _ _ hz _ _ _ ih1 ih2 => exact app (app (hzero hz) ih1) ih2
  | recall _ hz _ ih => exact app (hzero hz) ih
  | assessment _ hz _ _ _ _ _ _ _ _ _ ih1 ih2 ih3 ih4 =>
    exact app (app (app (app (hzero hz) ih1) ih2) ih3) ih4
  | absent _ ih | sequence _ ih | notPresent _ ih | fixed _ ih | op201 _ ih | op202 _ ih | op207 _ ih | op208 _ ih
  | op203end _ _ ih | op204 _ _ ih | op204end _ _ _ ih | op235 _ ih | op237end _ ih => exact ih

theorem flatten_unique {is is' : List (Datum Double)} {bss bss' : List (List Bool)} (he : written is 0 = written is' 0)
    (hl : ∀ i ∈ is, Lossless i.info) (h : List.Forall₂ (fun (i : Datum Double) b => Single i.info b i.vals) is bss)
    (h' : List.Forall₂ (fun (i : Datum Double) b => Single i.info b i.vals) is' bss') : bss = bss' := by
  induction h generalizing is' bss' with
  | nil =>
    cases h' with
    | nil => rfl
    | cons _ _ => cases he
  | @cons i b is bss hw _ ih =>
    cases h' with
    | nil => cases he
    | @cons i' b' is' bss' hw' h' =>
      simp only [written, List.map_cons, List.cons.injEq, Option.some.injEq, Prod.mk.injEq] at he
      obtain ⟨⟨-, e1, e2⟩, e3⟩ := he
      rw [ih e3 (fun i hi => hl i (List.mem_cons_of_mem _ hi)) h']
      have one : ∀ {info : PackingInfo Double} {b : List Bool} {vs : List (Val Double)}, Single info b vs → vs = [vs.getD 0 .nil] := by
        intro info b vs h
        cases h <;> rfl
      rw [one hw, e2] at hw
      rw [one hw', ← e1] at hw'
      rw [single_unique (hl i List.mem_cons_self) hw hw']

theorem subsets_unique : ∀ {xs xs' : List (List Bool × List (Datum Double))}, (xs.map fun x => written x.2 0) = (xs'.map fun x => written x.2 0) →
    (∀ x ∈ xs, ∀ i ∈ x.2, Lossless i.info) → (∀ x ∈ xs, ∃ c y ns, Coded Single c {} ns x.1 x.2 y) →
    (∀ x ∈ xs', ∃ c y ns, Coded Single c {} ns x.1 x.2 y) → xs.flatMap Prod.fst = xs'.flatMap Prod.fst
  | [], [], _, _, _, _ => rfl
  | [], _ :: _, he, _, _, _ => by cases he
  | _ :: _, [], he, _, _, _ => by cases he
  | x :: xs, x' :: xs', he, hl, h, h' => by
    simp only [List.map_cons, List.cons.injEq] at he
    obtain ⟨_, _, _, hx⟩ := h x List.mem_cons_self
    obtain ⟨_, _, _, hx'⟩ := h' x' List.mem_cons_self
    obtain ⟨l, e1, k1⟩ := Coded.pieces hx
    obtain ⟨l', e2, k2⟩ := Coded.pieces hx'
    rw [List.flatMap_cons, List.flatMap_cons, e1, e2, flatten_unique he.1 (hl x List.mem_cons_self) k1 k2,
      subsets_unique he.2 (fun y hy => hl y (List.mem_cons_of_mem _ hy)) (fun y hy => h y (List.mem_cons_of_mem _ hy))
        (fun y hy => h' y (List.mem_cons_of_mem _ hy))]

/-- **C121**, what holds of single values: with an element that loses nothing, bits that are decoded to the same value are the same. -/
theorem C121_value (info : PackingInfo Double) (hl : Lossless info) (b b' t t' : Bits) (p p' q q' : Int) (v : Val Double)
    (hp : Proper info v) (h : uncompressUnpack info (.bin ⟨b ++ t, p⟩) = (.ok v, .bin ⟨t, q⟩))
    (h' : uncompressUnpack info (.bin ⟨b' ++ t', p'⟩) = (.ok v, .bin ⟨t', q'⟩)) : b = b' :=
  have hp' : ∀ w ∈ [v], Proper info w := by simpa using hp
  single_unique hl (taken_single ⟨v, p, q, t, rfl, h⟩ hp') (taken_single ⟨v, p', q', t', rfl, h'⟩ hp')

/-- **C121**, what holds of messages: two messages without compression that are decoded to the same items carry the same data, if the
elements lose nothing. -/
theorem C121_partial (c c' : FacCfg) (hc : c.inputType = .binary) (hc' : c'.inputType = .binary) (s s1 s' s1' : Fac Double)
    (m m' : Message Double) (input input' : List UInt8) (q q' : Int) (hs : s.r = .bin ⟨BitReader.bitsOfBytes input, 8 * q⟩)
    (hs' : s'.r = .bin ⟨BitReader.bitsOfBytes input', 8 * q'⟩)
    (h : Runtime.run c s = (.ok m, s1)) (h' : Runtime.run c' s' = (.ok m', s1'))
    (hcomp : fieldValue m 3 "isCompressed" = some (.bool false)) (hcomp' : fieldValue m' 3 "isCompressed" = some (.bool false))
    (hloc : LocalFits m) (hloc' : LocalFits m') {ns ns' : List Ast} (hns : Means c m ns) (hns' : Means c' m' ns')
    (hsim : simpleL true ns = true) (hsim' : simpleL true ns' = true) (p p' : Payload Double) (hp : payloadOf m = some p)
    (hp' : payloadOf m' = some p') (he : p.subsets.map reported = p'.subsets.map reported)
    (hl : ∀ sub ∈ p.subsets, ∀ d info v, some (d, info, v) ∈ reported sub → Proper info v ∧ Lossless info) :
    ∃ (d d' : Draft) (junk bs rest junk' bs' rest' : List UInt8) (xs xs' : List (List Bool × List (Datum Double))),
      d.StandsIn input junk bs rest ∧ d'.StandsIn input' junk' bs' rest' ∧ d.Sound ∧ d'.Sound ∧ d.Says m ∧ d'.Says m' ∧
      d.Carries c ns xs ∧ d'.Carries c' ns' xs' ∧ d.data = d'.data := by
  have key : ∀ x ∈ p.subsets.map reported, ∀ d info v, some (d, info, v) ∈ x → Proper info v ∧ Lossless info := by
    intro x hx
    obtain ⟨sub, hsub, rfl⟩ := List.mem_map.1 hx
    exact hl sub hsub
  obtain ⟨d, junk, bs, rest, p1, xs, k1, k2, k3, k4, k5, k6, k7, -⟩ := C100_uncompressed_partial c hc s s1 m input q hs h hcomp hloc hns
    hsim fun p1 hp1 sub hsub d info v hi => by
      rw [hp] at hp1
      cases hp1
      exact (hl sub hsub d info v hi).1
  obtain ⟨d', junk', bs', rest', p1', xs', l1, l2, l3, l4, l5, l6, l7, -⟩ := C100_uncompressed_partial c' hc' s' s1' m' input' q' hs' h'
    hcomp' hloc' hns' hsim' fun p1 hp1 sub hsub d info v hi => by
      rw [hp'] at hp1
      cases hp1
      exact (key _ (he ▸ List.mem_map_of_mem hsub) d info v hi).1
  rw [hp] at k6
  cases k6
  rw [hp'] at l6
  cases l6
  refine ⟨d, d', junk, bs, rest, junk', bs', rest', xs, xs', k1, l1, k2, l2, k3, l3, k5, l5, ?_⟩
  rw [k5.data, l5.data]
  refine subsets_unique (k7.symm.trans (he.trans l7)) ?_ (fun x hx => ⟨_, (k5.coded x hx).choose, _, (k5.coded x hx).choose_spec⟩)
    (fun x hx => ⟨_, (l5.coded x hx).choose, _, (l5.coded x hx).choose_spec⟩)
  intro x hx i hi
  refine (key (written x.2 0) (k7 ▸ List.mem_map_of_mem hx) i.desc i.info (i.vals.getD 0 .nil) ?_).2
  exact List.mem_map_of_mem (f := fun i : Datum Double => some (i.desc, i.info, i.vals.getD 0 .nil)) hi

/-- **C121**: elements of table B lose nothing, whatever the operators, if they stay within the limits. -/
theorem C121_packing (o : Flat.Operands) (e : Bentry) (hu : e.unit ≠ .code) (h1 : (o.packing e : PackingInfo Double).nbits ≤ 47)
    (h2 : -200 ≤ (o.packing e : PackingInfo Double).scale) (h3 : (o.packing e : PackingInfo Double).scale ≤ 200) (k : Nat)
    (hk : o.y207 = k) (h22 : k ≤ 22) (h : (e.refval * 10 ^ k).natAbs ≤ 2 ^ 47) : Lossless (o.packing e : PackingInfo Double) := by
  have hunit : (o.packing e : PackingInfo Double).unit = e.unit := by
    unfold Flat.Operands.packing
    split <;> simp_all
  unfold Lossless
  rw [hunit]
  split
  · rename_i hn
    exact ⟨h1, h2, h3, _, h, C119_refval o e k hn hk h22 (by omega)⟩
  · exact hu (by assumption)
  · trivial

/-- C121 is violated by numbers of 60 bits (201YYY can make them): they have more digits than a double. -/
theorem C121_violates : ¬ C121_statement := by
  intro h
  have key : ∀ raw : Nat, raw < 2 ^ 60 → ∀ v, value (⟨.numeric, 0, GoFloat.ofInt 0, 60⟩ : PackingInfo Double) 60 raw = v →
      uncompressUnpack (⟨.numeric, 0, GoFloat.ofInt 0, 60⟩ : PackingInfo Double) (.bin ⟨natBits 60 raw ++ [], 0⟩) =
        (.ok v, .bin ⟨[], 0 + (natBits 60 raw).length⟩) := by
    intro raw hr v hv
    rw [C42_numeric_partial _ 60 raw [] 0 (.inl rfl) rfl (by decide) hr, hv]
    simp
  have := h _ _ _ [] [] 0 0 _ (by simp) (key (2 ^ 59) (by decide) _ rfl) (key (2 ^ 59 + 1) (by decide) _ (by decide +kernel))
  exact absurd this (by decide +kernel)

/-- And by codes with a sign: zero has two. -/
theorem C121_signed (t : Bits) (p : Int) : uncompressUnpack (⟨.code, 0, GoFloat.ofInt 0, 4⟩ : PackingInfo Double)
      (.bin ⟨[false, false, false, false] ++ t, p⟩) = (.ok (.int 0), .bin ⟨t, p + 4⟩) ∧
    uncompressUnpack (⟨.code, 0, GoFloat.ofInt 0, 4⟩ : PackingInfo Double)
      (.bin ⟨[true, false, false, false] ++ t, p⟩) = (.ok (.int 0), .bin ⟨t, p + 4⟩) :=
  ⟨C42_signed (⟨.code, 0, GoFloat.ofInt 0, 4⟩ : PackingInfo Double) 3 false 0 t p rfl rfl (by decide) (by decide),
    C42_signed (⟨.code, 0, GoFloat.ofInt 0, 4⟩ : PackingInfo Double) 3 true 0 t p rfl rfl (by decide) (by decide)⟩

/-! ## Exactness of all numbers of a message -/

theorem accurate_scaled (info : PackingInfo Double) {raw : Nat} (hr : raw < 2 ^ 64) : Accurate info (.float (scaled info raw)) :=
  .inr ⟨raw, _, rfl, hr, fun ref hx h53 => ⟨fun h1 h2 h3 => scaled_nearest h53 hx h3 h1 h2,
    fun k hk h1 h2 => scaled_exact h53 hx hk h1 h2, fun h1 h2 h3 => Double.div_back (sum_exact h53 hx (by omega)) h1 h2 h3,
    fun h1 h2 h3 => scaled_close h53 hx h3 h1 h2⟩⟩

theorem accurate_value {info : PackingInfo Double} (hu : info.unit = .numeric) {n raw : Nat} (hr : raw < 2 ^ 64) :
    Accurate info (value info n raw) := by
  by_cases hm : AllOnes n raw
  · exact .inl (if_pos hm)
  · rw [value_present hu hm]
    exact accurate_scaled info hr

theorem single_accurate {info : PackingInfo Double} (hu : info.unit = .numeric) {b : List Bool} {vs : List (Val Double)}
    (h : Single info b vs) : ∀ v ∈ vs, Accurate info v := by
  cases h with
  | number _ _ h64 hr =>
    intro v hv
    rw [List.mem_singleton.1 hv]
    exact accurate_value hu (lt_of_lt_of_le hr (Nat.pow_le_pow_right (by decide) h64))
  | text h _ => rw [hu] at h; cases h
  | signed h => rw [hu] at h; cases h
  | skipped h => rw [hu] at h; cases h

theorem lenient_accurate {k : Nat} {info : PackingInfo Double} (hu : info.unit = .numeric) {b : List Bool} {vs : List (Val Double)}
    (h : Lenient k info b vs) : ∀ v ∈ vs, Accurate info v := by
  cases h with
  | none h _ => rw [hu] at h; rcases h with h | h <;> cases h
  | same _ _ _ h64 hr =>
    intro v hv
    rw [List.eq_of_mem_replicate hv]
    exact accurate_value hu (lt_of_lt_of_le hr (Nat.pow_le_pow_right (by decide) h64))
  | increments _ _ _ h64 hr _ _ _ _ _ =>
    intro v hv
    obtain ⟨d, -, rfl⟩ := List.mem_map.1 hv
    split
    · exact .inl rfl
    · unfold sumValue
      split
      · exact accurate_value hu (Nat.mod_lt _ (by decide))
      · unfold present
        rw [hu]
        exact accurate_scaled info (Nat.mod_lt _ (by decide))
  | sameText h _ => rw [hu] at h; cases h
  | texts h => rw [hu] at h; cases h
  | sameSigned h => rw [hu] at h; cases h
  | noSigned h => rw [hu] at h; cases h
  | noBits h => rw [hu] at h; cases h

theorem written_accurate {is : List (Datum Double)} {j : Nat} (h : ∀ i ∈ is, i.info.unit = .numeric → ∀ v ∈ i.vals, Accurate i.info v)
    {d : NodeDesc} {info : PackingInfo Double} {v : Val Double} (hm : some (d, info, v) ∈ written is j) (hu : info.unit = .numeric) :
    Accurate info v := by
  obtain ⟨i, hi, e⟩ := List.mem_map.1 hm
  cases e
  rw [List.getD_eq_getElem?_getD]
  cases hj : i.vals[j]? with
  | none => exact .inl rfl
  | some w => exact h i hi hu _ (List.mem_of_getElem? hj)

/-- **C119** and **C120** for messages: all numbers of a decoded message without compression are as exact as can be. -/
theorem C119_message (c : FacCfg) (hc : c.inputType = .binary) (s s' : Fac Double) (m : Message Double) (input : List UInt8) (q : Int)
    (hs : s.r = .bin ⟨BitReader.bitsOfBytes input, 8 * q⟩) (h : Runtime.run c s = (.ok m, s'))
    (hcomp : fieldValue m 3 "isCompressed" = some (.bool false)) (hloc : LocalFits m) {ns : List Ast} (hns : Means c m ns)
    (hsim : simpleL true ns = true) (p : Payload Double) (hp : payloadOf m = some p)
    (hw : ∀ sub ∈ p.subsets, ∀ d info v, some (d, info, v) ∈ reported sub → Proper info v) :
    ∀ sub ∈ p.subsets, ∀ d info v, some (d, info, v) ∈ reported sub → info.unit = .numeric → Accurate info v := by
  obtain ⟨_, _, _, _, p1, xs, -, -, -, -, k5, k6, k7, -⟩ := C100_uncompressed_partial c hc s s' m input q hs h hcomp hloc hns hsim
    fun p1 hp1 => by
      rw [hp] at hp1
      cases hp1
      exact hw
  rw [hp] at k6
  cases k6
  intro sub hsub d info v hi hu
  have hmem := List.mem_map_of_mem (f := reported) hsub
  rw [k7] at hmem
  obtain ⟨x, hx, e⟩ := List.mem_map.1 hmem
  obtain ⟨y, hcod⟩ := k5.coded x hx
  rw [← e] at hi
  refine written_accurate (fun i hi hu => ?_) hi hu
  obtain ⟨b, hb⟩ := hcod.each i hi
  exact single_accurate hu hb

/-- **C119** and **C120** for messages with compression. -/
theorem C119_compressed (c : FacCfg) (hc : c.inputType = .binary) (s s' : Fac Double) (m : Message Double) (input : List UInt8) (q : Int)
    (hs : s.r = .bin ⟨BitReader.bitsOfBytes input, 8 * q⟩) (h : Runtime.run c s = (.ok m, s'))
    (hcomp : fieldValue m 3 "isCompressed" = some (.bool true)) (hsub : fieldValue m 3 "nSubsets" ≠ some (.uint 0)) (hloc : LocalFits m)
    {ns : List Ast} (hns : Means c m ns) (hsim : simpleL true ns = true) (p : Payload Double) (hp : payloadOf m = some p)
    (hw : ∀ sub ∈ p.subsets, ∀ d info v, some (d, info, v) ∈ reported sub → ProperColumn info) :
    ∀ sub ∈ p.subsets, ∀ d info v, some (d, info, v) ∈ reported sub → info.unit = .numeric → Accurate info v := by
  obtain ⟨_, _, _, _, p1, k, is, -, -, -, -, -, k5, k6, k7, -⟩ := C100_compressed_partial c hc s s' m input q hs h hcomp hsub hloc hns hsim
    fun p1 hp1 => by
      rw [hp] at hp1
      cases hp1
      exact hw
  rw [hp] at k6
  cases k6
  intro sub hsub d info v hi hu
  have hmem := List.mem_map_of_mem (f := reported) hsub
  rw [k7] at hmem
  obtain ⟨j, -, e⟩ := List.mem_map.1 hmem
  obtain ⟨y, hcod⟩ := k5.coded
  rw [← e] at hi
  refine written_accurate (fun i hi hu => ?_) hi hu
  obtain ⟨b, hb⟩ := hcod.each i hi
  exact lenient_accurate hu hb

/-! ## The hypotheses are met -/

example (b t t' : Bits) (p p' q' : Int) (h : uncompressUnpack temperature (.bin ⟨b ++ t, p⟩) = (.ok (.float (scaled temperature 27315)), .bin ⟨t, q'⟩)) :
    b = natBits 16 27315 :=
  C121_value temperature ⟨by decide, by decide, by decide, 0, by decide, zero_exact⟩ b (natBits 16 27315) t t' p p' q' (p' + 16)
    _ ⟨by decide, by decide⟩ h (by
      rw [C42_numeric_partial temperature 16 27315 t' p' (.inl rfl) rfl (by decide) (by decide), value_present rfl (by decide)]
      rfl)

/-- 002067 with 201130, 202129 and 207001. -/
example : Lossless (({ y201 := 130, y202 := 129, y207 := 1 } : Flat.Operands).packing ⟨[], [], .numeric, -5, 0, 15, [], .numeric, 0, 0⟩) :=
  C121_packing _ _ (by decide) (by decide) (by decide) (by decide) 1 rfl (by decide) (by decide)

namespace LosslessExample
open MessageExample AcceptExample

def info : PackingInfo Double := ({} : Flat.Operands).packing AcceptExample.temperature

theorem info_lossless : Lossless info := C121_packing _ _ (by decide) (by decide) (by decide) (by decide) 0 rfl (by decide) (by decide)

def datum (n : Nat) : Datum Double := ⟨⟨some ⟨12001, .b AcceptExample.temperature⟩, false⟩, info, [value info 8 n]⟩

theorem coded (n : Nat) (h : n < 2 ^ 8) : ∃ y, Coded Single false {} tree (natBits 8 n) [datum n] y := by
  have := Coded.element (F := Double) (W := Single) (compatible := false) (x := {}) (ts := [])
    (d := ⟨12001, .b AcceptExample.temperature⟩) (e := AcceptExample.temperature) rfl .nil
    (.number (n := 8) (raw := n) (.inl rfl) rfl (by decide) h) .nil
  exact ⟨_, by simpa using! this⟩

/-- The message with something in front of it or not. -/
theorem runs (junk : List UInt8) (hj : ¬ signature <:+: junk) : ∃ m s' p,
    Runtime.run cfg (Fac.new (.bin ⟨BitReader.bitsOfBytes (junk ++ (body3 ++ stop) ++ []), 8 * 0⟩) : Fac Double) = (.ok m, s') ∧
    fieldValue m 3 "isCompressed" = some (.bool false) ∧ LocalFits m ∧ Means cfg m tree ∧ payloadOf m = some p ∧
    p.subsets.map reported = [written [datum 0x12] 0, written [datum 0x13] 0] ∧
    ∀ x ∈ [written [datum 0x12] 0, written [datum 0x13] 0], ∀ d info v, some (d, info, v) ∈ x → Proper info v := by
  refine (C100_uncompressed_exactly cfg rfl _ _ 0 rfl (by decide) _).2 ⟨draft3, junk, body3 ++ stop, [],
    [(natBits 8 0x12, [datum 0x12]), (natBits 8 0x13, [datum 0x13])], ⟨rfl, hj, by decide +kernel⟩, sound3, ?_, ⟨rfl, rfl, rfl, ?_⟩, rfl⟩
  · exact ⟨group, rootDescriptor, found, parsed⟩
  · simpa using! ⟨coded 0x12 (by decide), coded 0x13 (by decide)⟩

example : ∃ (d d' : Draft), d.data = d'.data ∧ d.Sound ∧ d'.Sound := by
  obtain ⟨m, s1, p, h, h1, h2, h3, h4, h5, h6⟩ := runs [0x42, 0x55] (by decide)
  obtain ⟨m', s1', p', h', h1', h2', h3', h4', h5', -⟩ := runs [] (by decide)
  obtain ⟨d, d', -, -, -, -, -, -, -, -, -, -, k, k', -, -, -, -, e⟩ := C121_partial cfg cfg rfl rfl _ s1 _ s1' m m' _ _ 0 0 rfl rfl h h'
    h1 h1' h2 h2' h3 h3' (by decide) (by decide) p p' h4 h4' (h5.trans h5'.symm) (by
      intro sub hsub d i v hi
      have := List.mem_map_of_mem (f := reported) hsub
      rw [h5] at this
      refine ⟨h6 _ this d i v hi, ?_⟩
      simp only [List.mem_cons, List.not_mem_nil, or_false] at this
      rcases this with e | e <;> rw [e] at hi <;> simp only [written, List.map_cons, List.map_nil, datum, List.mem_cons,
        List.not_mem_nil, or_false, Option.some.injEq, Prod.mk.injEq] at hi <;> rw [hi.2.1] <;> exact info_lossless)
  exact ⟨d, d', e, k, k'⟩

example : ∃ (m : Message Double) (p : Payload Double), payloadOf m = some p ∧ p.subsets.length = 2 ∧
    ∀ sub ∈ p.subsets, ∀ d info v, some (d, info, v) ∈ reported sub → info.unit = .numeric → Accurate info v := by
  obtain ⟨m, s1, p, h, h1, h2, h3, h4, h5, h6⟩ := runs [0x42, 0x55] (by decide)
  refine ⟨m, p, h4, by simpa using congrArg List.length h5, C119_message cfg rfl _ s1 m _ 0 rfl h h1 h2 h3 (by decide) p h4 ?_⟩
  intro sub hsub
  exact h6 _ (h5 ▸ List.mem_map_of_mem hsub)

theorem codedC : ∃ y, Coded (Lenient 2) false {} tree draft4.data
    [⟨⟨some ⟨12001, .b AcceptExample.temperature⟩, false⟩, info, [value info 8 103, .nil]⟩] y := by
  have := Coded.element (F := Double) (W := Lenient 2) (compatible := false) (x := {}) (ts := [])
    (d := ⟨12001, .b AcceptExample.temperature⟩) (e := AcceptExample.temperature) rfl .nil
    (.increments (n := 8) (base := 100) (w := 3) (incs := [3, 7]) (.inl rfl)
      rfl (by decide) (by decide) (by decide) (by decide) (by decide) (by decide) (by decide) rfl) .nil
  exact ⟨_, by simpa using! this⟩

example : ∃ (m : Message Double) (p : Payload Double), payloadOf m = some p ∧ p.subsets.length = 2 ∧
    ∀ sub ∈ p.subsets, ∀ d info v, some (d, info, v) ∈ reported sub → info.unit = .numeric → Accurate info v := by
  obtain ⟨m, s1, p, h, h1, h0, h2, h3, h4, h5, h6⟩ := (C100_compressed_exactly (F := Double) cfg rfl
    (Fac.new (.bin ⟨BitReader.bitsOfBytes ([] ++ bytes4 ++ [7]), 8 * 0⟩)) _ 0 rfl (by decide) _).2
    ⟨draft4, [], bytes4, [7], 2, _, ⟨rfl, by decide, by decide +kernel⟩, sound4, ⟨group, rootDescriptor, found, parsed⟩, by decide,
      ⟨rfl, rfl, codedC⟩, rfl⟩
  refine ⟨m, p, h4, by simpa using congrArg List.length h5, C119_compressed cfg rfl _ s1 m _ 0 rfl h h1 h0 h2 h3 (by decide) p h4 ?_⟩
  intro sub hsub
  exact h6 _ (h5 ▸ List.mem_map_of_mem hsub)

end LosslessExample

end Gobufr
