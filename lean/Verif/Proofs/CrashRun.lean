import Verif.Proofs.Crash
import Verif.Proofs.SafeRun
import Verif.Proofs.OnlyCompressed
import Verif.Props.PayloadShape

/-!
# Lemmas for C94: crashes at bitmaps, when subsets are decoded
-/

set_option linter.unusedSectionVars false

namespace Gobufr
namespace EncodeSpec
open Flat Safety

variable {F τ : Type} {c : VisCfg} {At : List τ → Reader F → Prop} [GoFloat F]

/-- Decoding one subset. -/
theorem root_blames (hc : CfgOk c) (hb : BinCfg c) (hi : c.inputType = .binary) {W : Wire F τ} {k : Option Nat}
    (hk : k = if c.compressed then some c.nsubsets.toNat else none) {ns : List Ast} (hns : noBaseL ns = true) {n' : Nat}
    (h : Blames (F := F) c At W k 0 n' (visitL c ns) ns) (d : Desc) {s : Vis F} {l : List τ} (hbin : Safe.Bin s.r) (hr : At l s.r) :
    Blame (F := F) W c.compatible {} ns l (Safe.Bin (Vis.visit c (.base d ns) s).2.r) (Vis.visit c (.base d ns) s).1 := by
  have hk' : k = if c.compressed = true ∧ c.inputType = .binary then some c.nsubsets.toNat else none := by
    rw [hk]
    simp only [hi, and_true]
  have h0 : k ≠ some 0 := by
    rw [hk]
    split
    · rename_i h1
      have := hb.subsets h1
      simp only [ne_eq, Option.some.injEq]
      omega
    · nofun
  have hn : ¬ (c.compressed = true ∧ c.inputType = .binary ∧ c.nsubsets < 0) := by
    rintro ⟨h1, -, h2⟩
    have := hb.subsets h1
    omega
  obtain ⟨s0, hreset⟩ : ∃ s0, Vis.reset c s = (.ok (), s0) := by
    unfold Vis.reset
    rw [if_neg hn]
    exact ⟨_, rfl⟩
  have hv : Vis.visit c (.base d ns) s = Vis.visitL c ns s0 := by
    simp only [Vis.visit]
    exact M.bind_ok hreset
  rw [hv]
  obtain ⟨hrep, -, -, -⟩ := represents_fresh c s s0 hreset
  obtain ⟨ρ', _, ho, hrep'⟩ := sim_visitL hc ns hns [] s0 _ hrep
  have hinv : Inv c 0 (fresh c s.r) := ⟨hbin, by rw [← hk, hk']; rfl, Int.le_refl _, Nat.zero_le _⟩
  have hf := h (fresh c s.r) _ _ {} l hinv
      { nbitsOffset := rfl, scaleOffset := rfl, nbitsIncrement := rfl, scaleIncrement := rfl, refvalFactor := rfl,
        nbitsString := rfl, assoc := rfl, seen := rfl, backref := rfl, pos := (fun _ h => by cases h), targets := rfl,
        current := (fun _ h => by cases h), reusable := (fun _ h => by cases h),
        fine := (fun _ h => by cases h), noCurrent := (fun _ _ => rfl), noReusable := (fun _ _ => rfl),
        someCurrent := (fun _ h => by cases h), someReusable := (fun _ h => by cases h),
        subsets := (by
          show (if c.compressed = true ∧ c.inputType = .binary then some c.nsubsets.toNat else none) ≠ some 0
          rw [← hk']
          exact h0) }
      ⟨fun _ h => (by cases h), fun _ h => (by cases h), fun _ h => (by cases h)⟩ hk'.symm hr rfl
  rw [outRel_any ho] at hf
  revert hrep' hf
  cases (Vis.visitL c ns s0).1 with
  | ok _ =>
    intro hrep' hf
    show Safe.Bin (Vis.visitL c ns s0).2.r
    rw [(hrep' nofun).1.r]
    exact hf.bin
  | err e => intros; trivial
  | panic w => exact fun _ hf => hf
  | diverge => exact fun _ hf => hf

/-- Decoding the subsets: if this crashes, some are decoded and the next is one that cannot be. -/
theorem subsets_blame (hc : CfgOk c) (hb : BinCfg c) (hi : c.inputType = .binary) {W : Wire F τ} {k : Option Nat}
    (hk : k = if c.compressed then some c.nsubsets.toNat else none) {ns : List Ast} (hns : noBaseL ns = true) {n' : Nat}
    (hbl : Blames (F := F) c At W k 0 n' (visitL c ns) ns) (ho : Only true c At W k (visitL c ns) ns) (d : Desc)
    (hAt : ∀ l r, At l r → Safe.Bin r) (n : Nat) : ∀ (p0 : Payload F) (s s' : Vis F) (o : Outcome (Payload F)) (l : List τ),
    At l s.r → Vis.decodeSubsets c (.base d ns) n p0 s = (o, s') → o.crashed →
    ∃ (data : List (List τ × List (Datum F))) (bits t : List τ) (why : Why) (w : String), o = .panic w ∧ why.panics w ∧
      data.length < n ∧ l = data.flatMap Prod.fst ++ bits ++ t ∧ (∀ x ∈ data, ∃ y, Coded W c.compatible {} ns x.1 x.2 y) ∧
      Stuck (F := F) W c.compatible why {} ns bits := by
  have hk' : k = if c.compressed = true ∧ c.inputType = .binary then some c.nsubsets.toNat else none := by
    rw [hk]
    simp only [hi, and_true]
  have h0 : k ≠ some 0 := by
    rw [hk]
    split
    · rename_i h1
      have := hb.subsets h1
      simp only [ne_eq, Option.some.injEq]
      omega
    · nofun
  induction n with
  | zero =>
    intro p0 s s' o l _ h hcr
    cases h
    exact hcr.elim
  | succ n ih =>
    intro p0 s s' o l hr h hcr
    simp only [Vis.decodeSubsets] at h
    rcases M.bind_crashed h hcr with ⟨o1, h1, hcr1⟩ | ⟨_, s1, h1, h2⟩
    · have hf := root_blames hc hb hi hk hns hbl d (hAt _ _ hr) hr
      rw [h1] at hf
      cases o1 with
      | ok _ => exact hcr1.elim
      | err _ => exact hcr1.elim
      | diverge => exact hf.elim
      | panic w =>
        obtain ⟨bits, t, why, e1, e2, e3⟩ := hf
        rw [M.bind_panic h1] at h
        cases h
        exact ⟨[], bits, t, why, w, rfl, e2, by simp, by simpa using e1, by simp, e3⟩
    · obtain ⟨b1, t1, is, y, ρ, f, rfl, q1, q2, st, -⟩ := root_only hc hk' h0 hns ho d hr h1
      have hp : Vis.produce p0 s1 = (.ok (Vis.addSubsets s1.heap s1.node s1.cells p0), s1) := by
        unfold Vis.produce
        have ht : Vis.treeRoot s1 = (.ok s1.node, s1) := by
          unfold Vis.treeRoot
          rw [st]
          rfl
        exact M.bind_ok ht
      rw [M.bind_ok hp] at h2
      obtain ⟨data, bits, t, why, w, e1, e2, e3, rfl, e5, e6⟩ := ih _ s1 s' o t1 q2 h2 hcr
      refine ⟨(b1, is) :: data, bits, t, why, w, e1, e2, by simpa using e3, by simp, ?_, e6⟩
      intro x hx
      rcases List.mem_cons.1 hx with rfl | hx
      · exact ⟨y, q1⟩
      · exact e5 x hx

end EncodeSpec
end Gobufr
