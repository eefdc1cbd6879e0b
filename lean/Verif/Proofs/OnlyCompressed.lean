import Verif.Proofs.Only

/-!
# Compressed data that are accepted

Helper lemmas for the part of `C99` about compressed data.
-/

namespace Gobufr
namespace EncodeSpec
open Flat UnpackSpec Spec

variable {F : Type} {c : VisCfg}

/-! ## Reading in a loop -/

/-- What a loop of reads has read. -/
theorem fill_inv {α : Type} {f : M (Reader F) α} {P : Bits → α → Prop}
    (hf : ∀ l p a r', f (.bin ⟨l, p⟩) = (.ok a, r') → ∃ b t q, l = b ++ t ∧ r' = .bin ⟨t, q⟩ ∧ P b a) :
    ∀ (k : Nat) (l : Bits) (p : Int) (as : List α) (r' : Reader F), fillM f k (.bin ⟨l, p⟩) = (.ok as, r') →
      ∃ (xs : List (Bits × α)) (t : Bits) (q : Int), l = xs.flatMap Prod.fst ++ t ∧ r' = .bin ⟨t, q⟩ ∧
        as = xs.map Prod.snd ∧ xs.length = k ∧ ∀ x ∈ xs, P x.1 x.2
  | 0, l, p, as, r', h => by
    cases h
    exact ⟨[], l, p, rfl, rfl, rfl, rfl, by simp⟩
  | k + 1, l, p, as, r', h => by
    obtain ⟨a, r1, h1, h2⟩ := M.bind_eq_ok.1 h
    obtain ⟨b, t, q, rfl, rfl, hP⟩ := hf _ _ _ _ h1
    obtain ⟨as', r2, h3, h4⟩ := M.bind_eq_ok.1 h2
    obtain ⟨xs, t', q', rfl, rfl, rfl, rfl, hxs⟩ := fill_inv hf k t q as' r2 h3
    cases h4
    refine ⟨(b, a) :: xs, t', q', by simp, rfl, rfl, rfl, ?_⟩
    intro x hx
    rcases List.mem_cons.1 hx with rfl | hx
    · exact hP
    · exact hxs x hx

theorem readNbitsDiff_inv [GoFloat F] {l : Bits} {p : Int} {v : Int} {r' : Reader F}
    (h : readNbitsDiff (.bin ⟨l, p⟩) = (.ok v, r')) :
    ∃ (w : Nat) (t : Bits), w < 64 ∧ v = w ∧ l = natBits 6 w ++ t ∧ r' = .bin ⟨t, p + 6⟩ := by
  obtain ⟨n, r1, h1, -⟩ := M.bind_eq_ok.1 h
  obtain ⟨b, t, rfl, hb, -, -⟩ := readUint_inv h1
  have hlt := bitsVal_lt b
  have hnb := natBits_bitsVal b
  rw [hb] at hlt hnb
  have e := readNbitsDiff_eq (F := F) (bitsVal b) (by simpa using hlt) t p
  rw [show natBits 6 (bitsVal b) = b from hnb, h] at e
  cases e
  exact ⟨bitsVal b, t, by simpa using hlt, rfl, by rw [show natBits 6 (bitsVal b) = b from hnb], rfl⟩

theorem readUint_inv' [GoFloat F] {n : Nat} (hn : n ≤ 64) {l : Bits} {p : Int} {v : Nat} {r' : Reader F}
    (h : Reader.readUint n (.bin ⟨l, p⟩) = (.ok v, r')) :
    ∃ t, l = natBits n v ++ t ∧ v < 2 ^ n ∧ r' = .bin ⟨t, p + n⟩ := by
  obtain ⟨b, t, rfl, hb, rfl, rfl⟩ := readUint_inv h
  have hb : b.length = n := by simpa using hb
  subst hb
  have hlt := bitsVal_lt b
  have : bitsVal b % two64 = bitsVal b :=
    Nat.mod_eq_of_lt (Nat.lt_of_lt_of_le hlt (Nat.pow_le_pow_right (by decide) hn))
  rw [this, natBits_bitsVal]
  exact ⟨t, rfl, hlt, rfl⟩

/-! ## Columns -/

theorem flatMap_pairs {α : Type} {g : α → Bits} : ∀ {xs : List (Bits × α)}, (∀ x ∈ xs, x.1 = g x.2) →
    xs.flatMap Prod.fst = (xs.map Prod.snd).flatMap g
  | [], _ => rfl
  | x :: xs, h => by
    simp only [List.flatMap_cons, List.map_cons]
    rw [h x List.mem_cons_self, flatMap_pairs fun y hy => h y (List.mem_cons_of_mem _ hy)]

theorem flatMap_const {α : Type} {w d : Nat} : ∀ {xs : List (Bits × α)}, (∀ x ∈ xs, x.1 = natBits w d) →
    xs.flatMap Prod.fst = (List.replicate xs.length d).flatMap (natBits w)
  | [], _ => rfl
  | x :: xs, h => by
    simp only [List.flatMap_cons, List.length_cons, List.replicate_succ]
    rw [h x List.mem_cons_self, flatMap_const fun y hy => h y (List.mem_cons_of_mem _ hy)]

/-- What an increment is read as. -/
def Increment [GoFloat F] (f : PackingInfo F → Nat → Outcome (Val F)) (info : PackingInfo F) (base w d : Nat) (v : Val F) : Prop :=
  if AllOnes w d then v = .nil else f info ((base + d) % two64) = .ok v

theorem unpackDiff_inv [GoFloat F] {f : PackingInfo F → Nat → Outcome (Val F)} {info : PackingInfo F} {base w : Nat} (hw : w < 64)
    {l : Bits} {p : Int} {v : Val F} {r' : Reader F} (h : unpackDiff f info base w (.bin ⟨l, p⟩) = (.ok v, r')) :
    ∃ b t q, l = b ++ t ∧ r' = .bin ⟨t, q⟩ ∧ ∃ d, d < 2 ^ w ∧ b = natBits w d ∧ Increment f info base w d v := by
  obtain ⟨d, r1, h1, h2⟩ := M.bind_eq_ok.1 h
  obtain ⟨t, rfl, hd, rfl⟩ := readUint_inv' (by omega) h1
  rw [isMissing_raw w d (by omega) hd] at h2
  refine ⟨_, t, p + w, rfl, ?_, d, hd, rfl, ?_⟩
  · by_cases ha : AllOnes w d
    · simp only [ha, decide_true, if_true] at h2
      cases h2
      rfl
    · simp only [ha, decide_false, Bool.false_eq_true, if_false] at h2
      obtain ⟨-, e⟩ := Prod.mk.inj h2
      exact e.symm
  · unfold Increment
    by_cases ha : AllOnes w d
    · simp only [ha, decide_true, if_true] at h2 ⊢
      cases h2
      rfl
    · simp only [ha, decide_false, Bool.false_eq_true, if_false] at h2 ⊢
      exact (Prod.mk.inj h2).1

theorem makeCheck_inv {σ : Type} {n : Int} {s s' : σ} {a : Unit} (h : makeCheck n s = (.ok a, s')) : s' = s := by
  unfold makeCheck at h
  split at h
  · cases h
  · cases h
    rfl

/-- The columns that `unpackOthers` accepts. -/
theorem others_inv [GoFloat F] {k n : Nat} {info : PackingInfo F} {f : PackingInfo F → Nat → Outcome (Val F)} (hn : info.nbits = n)
    (h64 : n ≤ 64) {l : Bits} {p : Int} {cv : CompressedVal F} {r' : Reader F}
    (h : unpackOthers k info f (.bin ⟨l, p⟩) = (.ok cv, r')) :
    ∃ base t q, base < 2 ^ n ∧ r' = .bin ⟨t, q⟩ ∧
      ((l = column n base 0 [] ++ t ∧ ∃ v, f info base = .ok v ∧ cv.values = List.replicate k v) ∨
       ∃ (w : Nat) (ds : List (Nat × Val F)), w ≠ 0 ∧ w < 64 ∧ ¬ AllOnes n base ∧ l = column n base w (ds.map Prod.fst) ++ t ∧
        cv.values = ds.map Prod.snd ∧ ds.length = k ∧ ∀ x ∈ ds, x.1 < 2 ^ w ∧ Increment f info base w x.1 x.2) := by
  unfold unpackOthers at h
  rw [hn] at h
  obtain ⟨base, r1, h1, h⟩ := M.bind_eq_ok.1 h
  obtain ⟨t1, rfl, hb, rfl⟩ := readUint_inv' h64 h1
  obtain ⟨wi, r2, h2, h⟩ := M.bind_eq_ok.1 h
  obtain ⟨w, t2, hw, rfl, rfl, rfl⟩ := readNbitsDiff_inv h2
  obtain ⟨_, r3, h3, h⟩ := M.bind_eq_ok.1 h
  cases makeCheck_inv h3
  by_cases h0 : w = 0
  · subst h0
    rw [if_pos (by rfl)] at h
    obtain ⟨v, r4, h4, h⟩ := M.bind_eq_ok.1 h
    obtain ⟨h5, rfl⟩ := Prod.mk.inj h4
    cases h
    exact ⟨base, t2, _, hb, rfl, .inl ⟨by simp [column], v, h5, by simp⟩⟩
  · rw [if_neg (by omega), isMissing_raw n base h64 hb] at h
    by_cases ha : AllOnes n base
    · simp only [ha, decide_true, if_true] at h
      cases h
    · simp only [ha, decide_false, Bool.false_eq_true, if_false] at h
      obtain ⟨vs, r4, h4, h⟩ := M.bind_eq_ok.1 h
      obtain ⟨xs, t, q, rfl, rfl, rfl, hlen, hxs⟩ := fill_inv (fun l p a r' => unpackDiff_inv hw) _ _ _ _ _ h4
      cases h
      have hgen : ∀ xs : List (Bits × Val F),
          (∀ x ∈ xs, ∃ d, d < 2 ^ w ∧ x.1 = natBits w d ∧ Increment f info base w d x.2) →
          ∃ ds : List (Nat × Val F), xs.flatMap Prod.fst = (ds.map Prod.fst).flatMap (natBits w) ∧
            xs.map Prod.snd = ds.map Prod.snd ∧ ds.length = xs.length ∧
            ∀ x ∈ ds, x.1 < 2 ^ w ∧ Increment f info base w x.1 x.2 := by
        intro xs
        induction xs with
        | nil => exact fun _ => ⟨[], rfl, rfl, rfl, by simp⟩
        | cons x xs ih =>
          intro hx
          obtain ⟨ds, e1, e2, e3, e4⟩ := ih fun y hy => hx y (List.mem_cons_of_mem _ hy)
          obtain ⟨d, d1, d2, d3⟩ := hx x List.mem_cons_self
          refine ⟨(d, x.2) :: ds, by simp [e1, d2], by simp [e2], by simp [e3], ?_⟩
          intro y hy
          rcases List.mem_cons.1 hy with rfl | hy
          · exact ⟨d1, d3⟩
          · exact e4 y hy
      obtain ⟨ds, e1, e2, e3, e4⟩ := hgen xs hxs
      refine ⟨base, t, q, hb, rfl, .inr ⟨w, ds, h0, hw, ha, ?_, e2, by simpa [e3] using hlen, e4⟩⟩
      simp [column, e1]

/-- The columns that `unpackOthers` accepts are accepted. -/
theorem others_read [GoFloat F] {n base w : Nat} {info : PackingInfo F} {f : PackingInfo F → Nat → Outcome (Val F)}
    (hn : info.nbits = n) (h64 : n ≤ 64) (hb : base < 2 ^ n) (h0 : w ≠ 0) (hw : w < 64) (ha : ¬ AllOnes n base)
    (incs : List Nat) (g : Nat → Val F) (hd : ∀ d ∈ incs, d < 2 ^ w)
    (hg : ∀ d ∈ incs, ¬ AllOnes w d → f info ((base + d) % two64) = .ok (g d)) (t : Bits) (p : Int) :
    unpackOthers (incs.length : Int) info f (.bin ⟨column n base w incs ++ t, p⟩)
      = (.ok ⟨.uint base, w, incs.map fun d => if AllOnes w d then .nil else g d⟩,
         .bin ⟨t, p + (n + 6 + w * incs.length)⟩) := by
  unfold column
  rw [List.append_assoc, unpackOthers_read _ info _ n base w _ p hn h64 hb hw (by omega), if_neg (by omega), hn,
    isMissing_raw n base h64 hb]
  simp only [ha, decide_false, Bool.false_eq_true, if_false, Int.toNat_natCast]
  have hst : (.bin ⟨incs.flatMap (natBits w) ++ t, p + n + 6⟩ : Reader F)
      = incState w t (p + (n + 6 + w * incs.length)) incs := by
    unfold incState; congr 2; omega
  rw [hst]
  have hfill := fillM_read (unpackDiff f info base w) (incState w t (p + (n + 6 + w * incs.length)))
    (fun d => if AllOnes w d then .nil else g d) incs (by
      intro x ys hx
      exact unpackDiff_eq _ info base w hw t _ x ys (hd x hx) _ (hg x hx))
  rw [M.bind_ok hfill]
  simp [incState]

theorem sum_value [GoFloat F] [LawfulGoFloat F] {n : Nat} {info : PackingInfo F} (hu : Plain info.unit) (hn : info.nbits = n)
    (h64 : n ≤ 64) (x : Nat) : unpackFn info info (x % two64) = .ok (sumValue info n x) := by
  unfold sumValue
  have e : x % two64 = x % 2 ^ 64 := rfl
  rw [e]
  split
  · exact unpackFn_eq info n _ hu hn h64 ‹_›
  · exact unpackFn_wide info n _ hu hn h64 (by omega)

theorem compressed_plain [GoFloat F] (ns : Int) (fuel : Nat) (info : PackingInfo F)
    (hu : Plain info.unit) (h0 : info.nbits = 0 → info.unit = .numeric) :
    compressedUnpack ns fuel info = unpackOthers ns info (unpackFn info) := by
  by_cases h : info.nbits = 0
  · have hu := h0 h
    unfold compressedUnpack unpackFn
    simp [hu]
  · exact compressedUnpack_plain ns fuel info hu h

/-! ## Signed numbers -/

theorem codeDiff_inv [GoFloat F] {w : Nat} (hw : w < 64) {l : Bits} {p : Int} {v : Val F} {r' : Reader F}
    (h : unpackCodeDiff w (.bin ⟨l, p⟩) = (.ok v, r')) :
    ∃ b t q, l = b ++ t ∧ r' = .bin ⟨t, q⟩ ∧ 2 ≤ w ∧ b = natBits w (2 ^ w - 1) ∧ v = .nil := by
  obtain ⟨d, r1, h1, h2⟩ := M.bind_eq_ok.1 h
  obtain ⟨t, rfl, hd, rfl⟩ := readUint_inv' (by omega) h1
  rw [isMissing_raw w d (by omega) hd] at h2
  by_cases ha : AllOnes w d
  · simp only [ha, decide_true, if_true] at h2
    cases h2
    obtain ⟨h2, rfl⟩ := (allOnes_iff w d hd).1 ha
    exact ⟨_, t, _, rfl, rfl, h2, rfl, rfl⟩
  · simp only [ha, decide_false, Bool.false_eq_true, if_false] at h2
    cases h2

theorem allOnes_max {w : Nat} (h : 2 ≤ w) : AllOnes w (2 ^ w - 1) := by
  have : 0 < 2 ^ w := Nat.two_pow_pos w
  exact (allOnes_iff w _ (by omega)).2 ⟨by omega, rfl⟩

theorem codeDiff_read [GoFloat F] {w : Nat} (h2 : 2 ≤ w) (hw : w < 64) (k : Nat) (t : Bits) (p : Int) :
    fillM (unpackCodeDiff (F := F) w) k (.bin ⟨(List.replicate k (2 ^ w - 1)).flatMap (natBits w) ++ t, p⟩)
      = (.ok (List.replicate k .nil), .bin ⟨t, p + w * k⟩) := by
  have hpos : 0 < 2 ^ w := Nat.two_pow_pos w
  have hfill := fillM_read (unpackCodeDiff (F := F) w) (incState w t (p + w * k)) (fun _ => .nil)
    (List.replicate k (2 ^ w - 1)) (by
      intro x ys hx
      have hx := List.eq_of_mem_replicate hx
      subst hx
      unfold unpackCodeDiff incState
      simp only [List.flatMap_cons, List.append_assoc]
      rw [M.bind_ok (readUint_natBits w _ _ _ (by omega) (by omega)), isMissing_raw w _ (by omega) (by omega),
        decide_eq_true (allOnes_max h2), if_pos rfl]
      have hp : p + (w : Int) * k - (w : Int) * (((2 ^ w - 1) :: ys).length : Int) + w = p + w * k - w * (ys.length : Int) := by
        simp only [List.length_cons, Int.natCast_add, Int.mul_add]; omega
      rw [hp]
      rfl)
  have e : incState (F := F) w t (p + w * k) (List.replicate k (2 ^ w - 1))
      = .bin ⟨(List.replicate k (2 ^ w - 1)).flatMap (natBits w) ++ t, p⟩ := by
    unfold incState
    rw [List.length_replicate]
    congr 2
    omega
  rw [e] at hfill
  rw [List.length_replicate] at hfill
  rw [hfill]
  simp [incState]

/-! ## What is accepted -/

/-- The bits `b` are taken for the column. -/
def TakenColumn [GoFloat F] (k fuel : Nat) (info : PackingInfo F) (b : List Bool) (vs : List (Val F)) : Prop :=
  ∃ cv p p' t, vs = cv.values ∧ compressedUnpack k fuel info (.bin ⟨b ++ t, p⟩) = (.ok cv, .bin ⟨t, p'⟩)

/-- What is left is an end of what was there. -/
def Ends {α : Type} (m : M (Reader F) α) : Prop :=
  ∀ l p a r', m (.bin ⟨l, p⟩) = (.ok a, r') → ∃ t q, t <:+ l ∧ r' = .bin ⟨t, q⟩

theorem Ends.pure {α : Type} (a : α) : Ends (Pure.pure a : M (Reader F) α) := by
  intro l p a r' h
  cases h
  exact ⟨l, p, List.suffix_refl _, rfl⟩

theorem Ends.bind {α β : Type} {m : M (Reader F) α} {f : α → M (Reader F) β} (h1 : Ends m) (h2 : ∀ a, Ends (f a)) :
    Ends (m >>= f) := by
  intro l p b r' h
  obtain ⟨a, r1, e1, e2⟩ := M.bind_eq_ok.1 h
  obtain ⟨t, q, s1, rfl⟩ := h1 _ _ _ _ e1
  obtain ⟨t', q', s2, rfl⟩ := h2 a _ _ _ _ e2
  exact ⟨t', q', s2.trans s1, rfl⟩

theorem Ends.lift {α : Type} (o : Outcome α) : Ends (M.lift o : M (Reader F) α) := by
  intro l p a r' h
  obtain ⟨-, rfl⟩ := Prod.mk.inj h
  exact ⟨l, p, List.suffix_refl _, rfl⟩

theorem Ends.readUint [GoFloat F] (n : Int) : Ends (F := F) (Reader.readUint n) := by
  intro l p a r' h
  obtain ⟨b, t, rfl, -, -, rfl⟩ := readUint_inv h
  exact ⟨t, _, ⟨b, rfl⟩, rfl⟩

theorem Ends.readInt [GoFloat F] (n : Int) : Ends (F := F) (Reader.readInt n) := by
  intro l p a r' h
  obtain ⟨s, b, t, rfl, -, -, rfl⟩ := readInt_inv h
  exact ⟨t, _, ⟨s :: b, rfl⟩, rfl⟩

theorem Ends.readBytes (n : Int) : Ends (F := F) (Reader.readBytes n) := by
  intro l p a r' h
  obtain ⟨t, rfl, -, rfl⟩ := readBytes_inv h
  exact ⟨t, _, ⟨_, rfl⟩, rfl⟩

theorem Ends.readNbitsDiff [GoFloat F] : Ends (F := F) readNbitsDiff := .bind (.readUint 6) fun _ => .pure _

theorem Ends.makeCheck (n : Int) : Ends (F := F) (makeCheck n) := by
  intro l p a r' h
  cases makeCheck_inv h
  exact ⟨l, p, List.suffix_refl _, rfl⟩

theorem Ends.fail {α : Type} (e : Err) : Ends (M.fail e : M (Reader F) α) := by
  intro l p a r' h
  cases h

theorem Ends.crash {α : Type} (e : String) : Ends (M.crash e : M (Reader F) α) := by
  intro l p a r' h
  cases h

theorem Ends.fillM {α : Type} {f : M (Reader F) α} (h : Ends f) : ∀ k, Ends (fillM f k)
  | 0 => .pure _
  | k + 1 => .bind h fun _ => .bind (Ends.fillM h k) fun _ => .pure _

theorem Ends.ite {α : Type} {q : Prop} [Decidable q] {m n : M (Reader F) α} (h1 : Ends m) (h2 : Ends n) :
    Ends (if q then m else n) := by
  split
  · exact h1
  · exact h2

theorem Ends.others [GoFloat F] (ns : Int) (info : PackingInfo F) (f : PackingInfo F → Nat → Outcome (Val F)) :
    Ends (unpackOthers ns info f) :=
  .bind (.readUint _) fun _ => .bind .readNbitsDiff fun _ => .bind (.makeCheck _) fun _ =>
    .ite (.bind (.lift _) fun _ => .pure _) (.ite (.fail _)
      (.bind (.fillM (.bind (.readUint _) fun _ => .ite (.pure _) (.lift _)) _) fun _ => .pure _))

theorem Ends.compressed [GoFloat F] (ns : Int) (fuel : Nat) (info : PackingInfo F) : Ends (compressedUnpack ns fuel info) := by
  unfold compressedUnpack
  cases info.unit with
  | string =>
    exact .bind (.readBytes _) fun _ => .bind .readNbitsDiff fun _ => .bind (.makeCheck _) fun _ =>
      .ite (.pure _) (.ite (.fail _) (.bind (.fillM (.readBytes _) _) fun _ => .pure _))
  | code =>
    exact .bind (.readInt _) fun _ => .bind .readNbitsDiff fun _ => .bind (.makeCheck _) fun _ =>
      .ite (.pure _) (.bind (.fillM (.bind (.readUint _) fun _ => .ite (.pure _) (.crash _)) _) fun _ => .pure _)
  | binary => exact .others _ _ _
  | numeric => exact .others _ _ _
  | nonnegCode => exact .ite (.bind (.makeCheck _) fun _ => .pure _) (.others _ _ _)
  | flag => exact .ite (.bind (.makeCheck _) fun _ => .pure _) (.others _ _ _)

theorem takes_compressed [GoFloat F] {k fuel : Nat} (hu : c.unpacker = .compressed k fuel) :
    Takes (F := F) c AtAny (TakenColumn k fuel) (some k) := by
  rintro info l r r' v vs ⟨p, rfl⟩ h hf
  rw [hu] at h
  simp only [Unpacker.unpack] at h
  obtain ⟨cv, r1, h1, h2⟩ := M.bind_eq_ok.1 h
  cases h2
  obtain ⟨t, q, ⟨b, rfl⟩, rfl⟩ := Ends.compressed _ _ _ _ _ _ _ h1
  exact ⟨b, t, rfl, ⟨cv, p, q, t, hf, h1⟩, q, rfl⟩

theorem fillM_length {σ α : Type} {f : M σ α} : ∀ {k : Nat} {s s' : σ} {as : List α}, fillM f k s = (.ok as, s') → as.length = k
  | 0, s, s', as, h => by cases h; rfl
  | k + 1, s, s', as, h => by
    obtain ⟨a, r1, h1, h2⟩ := M.bind_eq_ok.1 h
    obtain ⟨as', r2, h3, h4⟩ := M.bind_eq_ok.1 h2
    cases h4
    simp [fillM_length h3]

theorem others_length [GoFloat F] {k : Nat} {info : PackingInfo F} {f : PackingInfo F → Nat → Outcome (Val F)} {s s' : Reader F}
    {cv : CompressedVal F} (h : unpackOthers k info f s = (.ok cv, s')) : cv.values.length = k := by
  unfold unpackOthers at h
  obtain ⟨base, r1, -, h⟩ := M.bind_eq_ok.1 h
  obtain ⟨wi, r2, -, h⟩ := M.bind_eq_ok.1 h
  obtain ⟨_, r3, -, h⟩ := M.bind_eq_ok.1 h
  by_cases h0 : wi = 0
  · rw [if_pos h0] at h
    obtain ⟨v, r4, -, h⟩ := M.bind_eq_ok.1 h
    cases h
    simp
  · rw [if_neg h0] at h
    by_cases hm : isMissing (.uint base : Val F) info.nbits = true
    · rw [if_pos hm] at h
      cases h
    · rw [if_neg hm] at h
      obtain ⟨vs, r4, h4, h⟩ := M.bind_eq_ok.1 h
      cases h
      exact fillM_length h4

theorem compressed_length [GoFloat F] {k fuel : Nat} {info : PackingInfo F} {s s' : Reader F}
    {cv : CompressedVal F} (h : compressedUnpack k fuel info s = (.ok cv, s')) : cv.values.length = k := by
  have hz : ∀ {f : PackingInfo F → Nat → Outcome (Val F)}, (if info.nbits = 0 then do
      makeCheck k
      pure ⟨.uint 0, 0, List.replicate (k : Int).toNat (.uint 0)⟩
    else unpackOthers k info f : M (Reader F) (CompressedVal F)) s = (.ok cv, s') → cv.values.length = k := by
    intro f h
    by_cases h0 : info.nbits = 0
    · rw [if_pos h0] at h
      obtain ⟨_, r3, -, h⟩ := M.bind_eq_ok.1 h
      cases h
      simp
    · rw [if_neg h0] at h
      exact others_length h
  unfold compressedUnpack at h
  cases hu : info.unit with
  | string =>
    simp only [hu] at h
    unfold unpackString at h
    obtain ⟨base, r1, -, h⟩ := M.bind_eq_ok.1 h
    obtain ⟨wi, r2, -, h⟩ := M.bind_eq_ok.1 h
    obtain ⟨_, r3, -, h⟩ := M.bind_eq_ok.1 h
    by_cases h0 : wi = 0
    · rw [if_pos h0] at h
      cases h
      simp
    · rw [if_neg h0] at h
      by_cases hm : base ≠ List.replicate (info.nbits.tdiv 8).toNat 0
      · rw [if_pos hm] at h
        cases h
      · rw [if_neg hm] at h
        obtain ⟨vs, r4, h4, h⟩ := M.bind_eq_ok.1 h
        cases h
        simpa using fillM_length h4
  | code =>
    simp only [hu] at h
    unfold unpackCode at h
    obtain ⟨base, r1, -, h⟩ := M.bind_eq_ok.1 h
    obtain ⟨wi, r2, -, h⟩ := M.bind_eq_ok.1 h
    obtain ⟨_, r3, -, h⟩ := M.bind_eq_ok.1 h
    by_cases h0 : wi = 0
    · rw [if_pos h0] at h
      cases h
      simp
    · rw [if_neg h0] at h
      obtain ⟨vs, r4, h4, h⟩ := M.bind_eq_ok.1 h
      cases h
      exact fillM_length h4
  | binary => simp only [hu] at h; exact others_length h
  | numeric => simp only [hu] at h; exact others_length h
  | nonnegCode => simp only [hu] at h; exact hz h
  | flag => simp only [hu] at h; exact hz h

theorem matches_compressed [GoFloat F] {k fuel : Nat} (hu : c.unpacker = .compressed k fuel) : Matches (F := F) c (some k) := by
  intro info r r' v h
  rw [hu] at h
  simp only [Unpacker.unpack] at h
  obtain ⟨a, r1, h1, h2⟩ := M.bind_eq_ok.1 h
  cases h2
  trivial

theorem zeroes_compressed [GoFloat F] {k fuel : Nat} (hu : c.unpacker = .compressed k fuel) : Zeroes (F := F) c AtAny := by
  rintro l r ⟨p, rfl⟩ e r' h
  rw [hu] at h
  simp only [Unpacker.unpack] at h
  have h1 : compressedUnpack (F := F) k fuel (Vis.plainInfo .nonnegCode 0) (.bin ⟨l, p⟩)
      = (.ok ⟨.uint 0, 0, List.replicate k (.uint 0)⟩, .bin ⟨l, p⟩) := by
    have : ¬ ((k : Int) < 0) := by omega
    simp only [compressedUnpack, Vis.plainInfo, makeCheck, this, if_false]
    rfl
  rw [M.bind_ok h1] at h
  cases h

theorem plainly_column [GoFloat F] {k fuel : Nat} {k' : Nat} : Plainly (F := F) (TakenColumn k fuel) (some k') := by
  intro h
  cases h

/-- What is taken for a column of proper width is accepted by the rules for columns. -/
theorem taken_lenient [GoFloat F] [LawfulGoFloat F] {k fuel : Nat} (hk : 0 < k) {info : PackingInfo F} {b : List Bool} {vs : List (Val F)}
    (h : TakenColumn k fuel info b vs) (hp : ProperColumn info) : Lenient k info b vs := by
  obtain ⟨cv, p, p', t, rfl, h⟩ := h
  unfold ProperColumn at hp
  have hplain : Plain info.unit → (info.nbits = 0 → info.unit = .numeric) → 0 ≤ info.nbits ∧ info.nbits ≤ 64 →
      Lenient k info b cv.values := by
    intro hu h0 hn
    rw [compressed_plain _ _ _ hu h0] at h
    have hN : info.nbits = (info.nbits.toNat : Nat) := by omega
    have hz : info.nbits.toNat = 0 → info.unit = .numeric := fun e => h0 (by omega)
    obtain ⟨base, t', q, hb, e, ⟨h1, v, h2, h3⟩ | ⟨w, ds, h1, h2, h3, h4, h5, h6, h7⟩⟩ := others_inv hN (by omega) h
    · cases e
      cases List.append_cancel_right h1
      rw [unpackFn_eq info info.nbits.toNat base hu hN (by omega) hb] at h2
      cases h2
      rw [h3]
      exact .same hu hN hz (by omega) hb
    · cases e
      cases List.append_cancel_right h4
      have hval : cv.values = (ds.map Prod.fst).map fun d => if AllOnes w d then .nil
          else sumValue info info.nbits.toNat (base + d) := by
        rw [h5, List.map_map]
        apply List.map_congr_left
        intro x hx
        have hi := (h7 x hx).2
        unfold Increment at hi
        simp only [Function.comp]
        split at hi
        · rw [hi, if_pos ‹_›]
        · rw [if_neg ‹_›]
          rw [sum_value hu hN (by omega)] at hi
          exact (Outcome.ok.inj hi).symm
      rw [hval]
      refine .increments hu hN hz (by omega) hb h1 h2 ?_ h3 (by simpa using h6)
      intro d hd
      obtain ⟨x, hx, rfl⟩ := List.mem_map.1 hd
      exact (h7 x hx).1
  cases hu : info.unit with
  | string =>
    simp only [hu] at hp
    obtain ⟨n, hn⟩ := hp
    unfold compressedUnpack at h
    simp only [hu] at h
    unfold unpackString at h
    simp only [hn, mul_tdiv_eight] at h
    obtain ⟨s, r1, h1, h⟩ := M.bind_eq_ok.1 h
    obtain ⟨t1, hb, hl, rfl⟩ := readBytes_inv h1
    obtain ⟨wi, r2, h2, h⟩ := M.bind_eq_ok.1 h
    obtain ⟨w, t2, hw, rfl, rfl, rfl⟩ := readNbitsDiff_inv h2
    obtain ⟨_, r3, h3, h⟩ := M.bind_eq_ok.1 h
    cases makeCheck_inv h3
    by_cases h0 : w = 0
    · subst h0
      rw [if_pos (by rfl)] at h
      cases h
      rw [← List.append_assoc] at hb
      cases List.append_cancel_right hb
      simpa using Lenient.sameText hu (by omega)
    · rw [if_neg (by omega)] at h
      by_cases hm : s ≠ List.replicate (n : Int).toNat 0
      · rw [if_pos hm] at h
        cases h
      · rw [if_neg hm] at h
        have hm : s = List.replicate n 0 := by simpa using hm
        obtain ⟨vs, r4, h4, h⟩ := M.bind_eq_ok.1 h
        obtain ⟨xs, t3, q, rfl, rfl, rfl, hlen, hxs⟩ := fill_inv
          (P := fun b (a : List UInt8) => b = a.flatMap byteBits ∧ a.length = w)
          (fun l p a r' h => by
            obtain ⟨t, rfl, hn, rfl⟩ := readBytes_inv h
            exact ⟨_, t, _, rfl, rfl, rfl, by omega⟩) _ _ _ _ _ h4
        cases h
        rw [flatMap_pairs fun x hx => (hxs x hx).1, ← List.append_assoc, ← List.append_assoc] at hb
        cases List.append_cancel_right hb
        subst hm
        refine .texts hu hn h0 hw ?_ (by simpa using hlen)
        intro x hx
        obtain ⟨y, hy, rfl⟩ := List.mem_map.1 hx
        exact (hxs y hy).2
  | code =>
    simp only [hu] at hp
    obtain ⟨n, hn⟩ : ∃ n : Nat, info.nbits = (n + 1 : Nat) := ⟨(info.nbits - 1).toNat, by omega⟩
    have hs : ∃ neg b' t', b ++ t = neg :: b' ++ t' ∧ b'.length = n := by
      unfold compressedUnpack at h
      simp only [hu] at h
      unfold unpackCode at h
      obtain ⟨_, r1, h1, -⟩ := M.bind_eq_ok.1 h
      obtain ⟨s, b', t', e, hl, -, -⟩ := readInt_inv h1
      exact ⟨s, b', t', e, by omega⟩
    obtain ⟨neg, b', t', hb, hl⟩ := hs
    have hv := bitsVal_lt b'
    have hnb := natBits_bitsVal b'
    rw [hl] at hv hnb
    have hw : ∃ w t2, w < 64 ∧ t' = natBits 6 w ++ t2 := by
      unfold compressedUnpack at h
      simp only [hu] at h
      unfold unpackCode at h
      obtain ⟨_, r1, h1, h⟩ := M.bind_eq_ok.1 h
      obtain ⟨s, b'', t'', e, hl', -, rfl⟩ := readInt_inv h1
      rw [hb] at e
      obtain ⟨e1, e2⟩ := List.append_inj (s₁ := neg :: b') (s₂ := s :: b'') e (by simp; omega)
      subst e2
      obtain ⟨wi, r2, h2, h⟩ := M.bind_eq_ok.1 h
      obtain ⟨w, t2, hw, rfl, rfl, rfl⟩ := readNbitsDiff_inv h2
      exact ⟨w, t2, hw, rfl⟩
    obtain ⟨w, t2, hw, rfl⟩ := hw
    have e := unpackCode_read (F := F) info n neg (bitsVal b') w k t2 p (by omega) hn (by omega) hv hw
    unfold compressedUnpack at h
    simp only [hu] at h
    rw [hnb] at e
    rw [hb, ← List.append_assoc, e] at h
    by_cases h0 : w = 0
    · subst h0
      rw [if_pos (by rfl)] at h
      cases h
      rw [← List.append_assoc] at hb
      cases List.append_cancel_right hb
      have := Lenient.sameSigned (k := k) (info := info) (neg := neg) hu hn (by omega) hv
      rw [hnb] at this
      simpa using this
    · rw [if_neg (by omega)] at h
      obtain ⟨vs, r4, h4, h⟩ := M.bind_eq_ok.1 h
      obtain ⟨xs, t3, q, rfl, rfl, rfl, hlen, hxs⟩ := fill_inv
        (P := fun b (a : Val F) => 2 ≤ w ∧ b = natBits w (2 ^ w - 1) ∧ a = .nil) (fun l p a r' => codeDiff_inv hw) _ _ _ _ _ h4
      cases h
      have hlen : xs.length = k := by simpa using hlen
      have hw2 : 2 ≤ w := by
        match xs, hlen with
        | [], e => simp at e; omega
        | x :: _, _ => exact (hxs x List.mem_cons_self).1
      have e1 : xs.flatMap Prod.fst = (List.replicate k (2 ^ w - 1)).flatMap (natBits w) := by
        rw [← hlen]
        exact flatMap_const fun x hx => (hxs x hx).2.1
      have e2 : xs.map Prod.snd = List.replicate k .nil := by
        rw [← hlen, List.eq_replicate_iff]
        refine ⟨by simp, ?_⟩
        intro v hv
        obtain ⟨x, hx, rfl⟩ := List.mem_map.1 hv
        exact (hxs x hx).2.2
      rw [e1, ← List.append_assoc, ← List.append_assoc] at hb
      cases List.append_cancel_right hb
      have := Lenient.noSigned (k := k) (info := info) (neg := neg) hu hn (by omega) hv hw2 hw
      rw [hnb] at this
      rw [e2]
      simpa using this
  | binary =>
    simp only [hu] at hp
    have hN : info.nbits = (info.nbits.toNat : Nat) := by omega
    unfold compressedUnpack at h
    simp only [hu] at h
    obtain ⟨base, t', q, hb, e, ⟨h1, v, h2, h3⟩ | ⟨w, ds, h1, h2, h3, h4, h5, h6, h7⟩⟩ := others_inv hN (by omega) h
    · rw [unpackBinary_diverges] at h2
      cases h2
    · cases e
      have hone : ∀ x ∈ ds, 2 ≤ w ∧ x.1 = 2 ^ w - 1 ∧ x.2 = .nil := by
        intro x hx
        obtain ⟨g1, g2⟩ := h7 x hx
        unfold Increment at g2
        split at g2
        · obtain ⟨g3, g4⟩ := (allOnes_iff w _ g1).1 ‹_›
          exact ⟨g3, g4, g2⟩
        · rw [unpackBinary_diverges] at g2
          cases g2
      have hw2 : 2 ≤ w := by
        match ds, h6 with
        | [], e => simp at e; omega
        | x :: _, _ => exact (hone x List.mem_cons_self).1
      have e1 : ds.map Prod.fst = List.replicate k (2 ^ w - 1) := by
        rw [← h6, List.eq_replicate_iff]
        refine ⟨by simp, ?_⟩
        intro v hv
        obtain ⟨x, hx, rfl⟩ := List.mem_map.1 hv
        exact (hone x hx).2.1
      have e2 : ds.map Prod.snd = List.replicate k .nil := by
        rw [← h6, List.eq_replicate_iff]
        refine ⟨by simp, ?_⟩
        intro v hv
        obtain ⟨x, hx, rfl⟩ := List.mem_map.1 hv
        exact (hone x hx).2.2
      rw [e1] at h4
      cases List.append_cancel_right h4
      rw [h5, e2]
      exact .noBits hu hN (by omega) hb h3 hw2 h2
  | numeric =>
    simp only [hu] at hp
    exact hplain (.inl hu) (fun _ => hu) hp
  | nonnegCode | flag =>
    simp only [hu] at hp
    by_cases h0 : info.nbits = 0
    · unfold compressedUnpack at h
      simp only [hu, h0, if_true] at h
      obtain ⟨_, r3, h3, h⟩ := M.bind_eq_ok.1 h
      cases makeCheck_inv h3
      obtain ⟨g1, g2⟩ := Prod.mk.inj h
      injection g1 with g1
      injection g2 with g2
      injection g2 with g2 g3
      have : b = [] := by
        have := congrArg List.length g2
        simp only [List.length_append] at this
        exact List.length_eq_zero_iff.1 (by omega)
      subst this
      subst g1
      simpa using Lenient.none (k := k) (by simp [hu]) h0
    · exact hplain (by simp [Plain, hu]) (fun e => absurd e h0) hp

/-! ## What is accepted is read -/

theorem reads_lenient [GoFloat F] [LawfulGoFloat F] {k fuel : Nat} (hu : c.unpacker = .compressed k fuel)
    {e : Int} : Reads (F := F) c (AtBits e) (Lenient k) (some k) := by
  intro info b vs h t r hat
  obtain ⟨p, rfl⟩ : ∃ p, r = .bin ⟨b ++ t, p⟩ := ⟨_, hat⟩
  suffices hs : ∃ v, c.unpacker.unpack info (.bin ⟨b ++ t, p⟩) = (.ok v, .bin ⟨t, p + b.length⟩) ∧ Fits (some k) v vs by
    obtain ⟨v, h1, h2⟩ := hs
    exact ⟨v, _, h1, atBits_read hat rfl, h2⟩
  have key : ∀ {v : CompressedVal F} {r : Reader F}, compressedUnpack k fuel info (.bin ⟨b ++ t, p⟩) = (.ok v, r) →
      c.unpacker.unpack info (.bin ⟨b ++ t, p⟩) = (.ok (.compressed v), r) := by
    intro v r h
    rw [hu]
    simp only [Unpacker.unpack]
    rw [M.bind_ok h]
    rfl
  cases h with
  | none h1 h2 => exact ⟨_, key (v := ⟨.uint 0, 0, List.replicate k (.uint 0)⟩) (by simpa using (C48_zero_width info h1 h2 _).2 k fuel), rfl⟩
  | @same n base h1 h2 h3 h4 h5 =>
    refine ⟨_, key (v := ⟨.uint base, 0, List.replicate k (value info n base)⟩) ?_, rfl⟩
    rw [compressed_plain _ _ _ h1 (fun e => h3 (by omega))]
    unfold column
    rw [List.append_assoc, unpackOthers_read _ info _ n base 0 _ p h2 h4 h5 (by decide) (by omega)]
    have hf := unpackFn_eq info n base h1 h2 h4 h5
    simp [hf, M.bind_apply, Int.add_assoc]
  | @increments n base w incs h1 h2 h3 h4 h5 h6 h7 h8 h9 h10 =>
    subst h10
    refine ⟨_, key (v := ⟨.uint base, w, _⟩) ?_, rfl⟩
    rw [compressed_plain _ _ _ h1 (fun e => h3 (by omega)),
      others_read h2 h4 h5 h6 h7 h9 incs (fun d => sumValue info n (base + d)) h8 (fun d _ _ => sum_value h1 h2 h4 _)]
    simp only [column, List.length_append, flatMap_natBits_length, natBits_length]
    simp
  | @sameText s h1 h2 =>
    refine ⟨_, key (v := ⟨.bytes s, 0, List.replicate k (.bytes s)⟩) ?_, rfl⟩
    rw [C45_same info fuel s k t p h1 (by rw [h2]; exact mul_tdiv_eight _)]
    simp only [List.length_append, flatMap_byteBits_length, natBits_length]
    simp [Int.mul_comm]
  | @texts n w strs h1 h2 h3 h4 h5 h6 =>
    subst h6
    refine ⟨_, key (v := ⟨.bytes (List.replicate n 0), w, strs.map .bytes⟩) ?_, rfl⟩
    rw [C45_own info fuel n w strs t p h1 (by rw [h2]; exact mul_tdiv_eight _) h3 h4 h5]
    simp only [List.length_append, flatMap_byteBits_length, natBits_length, flatMap_texts_length w strs h5, List.length_replicate]
    simp [Int.mul_comm]
  | @sameSigned n mag neg h1 h2 h3 h4 =>
    refine ⟨_, key (v := ⟨.int (if neg then -(mag : Int) else mag), 0, _⟩) ?_, rfl⟩
    rw [C46_width0_partial info fuel n neg mag k t p h1 h2 h3 h4]
    simp [Int.add_assoc]
  | @noSigned n mag w neg h1 h2 h3 h4 h5 h6 =>
    refine ⟨_, key (v := ⟨.int (if neg then -(mag : Int) else mag), w, List.replicate k .nil⟩) ?_, rfl⟩
    unfold compressedUnpack
    simp only [h1]
    rw [List.append_assoc, unpackCode_read info n neg mag w _ _ p (by omega) h2 h3 h4 h6, if_neg (by omega),
      Int.toNat_natCast, M.bind_ok (codeDiff_read h5 h6 k t _)]
    simp only [List.length_append, List.length_cons, flatMap_natBits_length, natBits_length, List.length_replicate]
    refine Prod.ext rfl ?_
    show Reader.bin ⟨t, _⟩ = Reader.bin ⟨t, _⟩
    congr 2
    simp only [Int.natCast_add, Int.natCast_mul]
    omega
  | @noBits n base w h1 h2 h3 h4 h5 h6 h7 =>
    refine ⟨_, key (v := ⟨.uint base, w, List.replicate k .nil⟩) ?_, rfl⟩
    unfold compressedUnpack
    simp only [h1]
    have hpos : 0 < 2 ^ w := Nat.two_pow_pos w
    have := others_read h2 h3 h4 (by omega) h7 h5 (f := unpackBinary fuel) (List.replicate k (2 ^ w - 1)) (fun _ => .nil)
      (fun d hd => by rw [List.eq_of_mem_replicate hd]; omega)
      (fun d hd hn => absurd (by rw [List.eq_of_mem_replicate hd]; exact allOnes_max h6) hn) t p
    rw [List.length_replicate] at this
    rw [this]
    simp only [column, List.length_append, flatMap_natBits_length, natBits_length, List.length_replicate, List.map_replicate]
    simp [allOnes_max h6]

/-- What is written by the rules is accepted. -/
theorem Shared.lenient [GoFloat F] {k : Nat} {info : PackingInfo F} {b : List Bool} {vs : List (Val F)} (h : Shared k info b vs) :
    Lenient k info b vs := by
  cases h with
  | none h1 h2 => exact .none h1 h2
  | same h1 h2 h3 h4 h5 => exact .same h1 h2 (fun e => by omega) h4 h5
  | @increments n base w incs h1 h2 h3 h4 h5 h6 h7 h8 h9 h10 =>
    have : (incs.map fun d => if natBits w d = List.replicate w true then (.nil : Val F) else value info n (base + d))
        = incs.map fun d => if AllOnes w d then .nil else sumValue info n (base + d) := by
      apply List.map_congr_left
      intro d hd
      obtain ⟨g1, g2⟩ := h8 d hd
      by_cases ha : AllOnes w d
      · rw [if_pos ha, if_pos ha.2]
      · rw [if_neg ha, if_neg (fun e => ha ⟨by omega, e⟩)]
        have hlt : base + d < 2 ^ n := g2.resolve_left fun e => ha ((allOnes_iff w d g1).2 ⟨by omega, e⟩)
        have hlt2 : base + d < 2 ^ 64 := Nat.lt_of_lt_of_le hlt (Nat.pow_le_pow_right (by decide) h4)
        unfold sumValue
        rw [Nat.mod_eq_of_lt hlt2, if_pos hlt]
    rw [this]
    exact .increments h1 h2 (fun e => by omega) h4 h5 (by omega) h7 (fun d hd => (h8 d hd).1) h9 h10
  | sameText h1 h2 => exact .sameText h1 h2
  | texts h1 h2 h3 h4 h5 h6 => exact .texts h1 h2 h3 h4 h5 h6
  | sameSigned h1 h2 h3 h4 => exact .sameSigned h1 h2 h3 h4

/-- Columns that are accepted have a proper width. -/
theorem Lenient.proper [GoFloat F] {k : Nat} {info : PackingInfo F} {b : List Bool} {vs : List (Val F)} (h : Lenient k info b vs) :
    ProperColumn info := by
  unfold ProperColumn
  cases h with
  | none h1 h2 => rcases h1 with h1 | h1 <;> rw [h1] <;> exact ⟨by omega, by omega⟩
  | same h1 h2 h3 h4 h5 => rcases h1 with h1 | h1 | h1 <;> rw [h1] <;> exact ⟨by omega, by omega⟩
  | increments h1 h2 h3 h4 h5 h6 h7 h8 h9 h10 => rcases h1 with h1 | h1 | h1 <;> rw [h1] <;> exact ⟨by omega, by omega⟩
  | sameText h1 h2 => rw [h1]; exact ⟨_, h2⟩
  | texts h1 h2 h3 h4 h5 h6 => rw [h1]; exact ⟨_, h2⟩
  | sameSigned h1 h2 h3 h4 => rw [h1]; exact ⟨by omega, by omega⟩
  | noSigned h1 h2 h3 h4 => rw [h1]; exact ⟨by omega, by omega⟩
  | noBits h1 h2 h3 h4 => rw [h1]; exact ⟨by omega, by omega⟩

/-- There is a value for every subset. -/
theorem Lenient.length [GoFloat F] {k : Nat} {info : PackingInfo F} {b : List Bool} {vs : List (Val F)} (h : Lenient k info b vs) :
    vs.length = k := by
  cases h <;> simp_all

end EncodeSpec
end Gobufr
