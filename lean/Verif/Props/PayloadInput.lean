import Verif.Props.PayloadTree
import Verif.Proofs.PayloadRuns
import Verif.Proofs.PayloadCost
import Verif.Proofs.Message

/-!
# Properties of payload decoding: what it depends on and what it takes (C53, C80)
-/

set_option linter.unusedSimpArgs false

namespace Gobufr
open TemplateSpec ParserSpec Flat

variable {F : Type} {c : VisCfg}

/-! ## C80 -/

/-- C80, the property: a payload that decodes consuming the bits `l` decodes to the same payload
(values, nodes and trees) from every input that starts with `l`, and leaves the rest unread. -/
def C80_statement : Prop :=
  ∀ (F : Type) [GoFloat F] (c : VisCfg) (d : Desc) (ns : List Ast) (k : Nat) (p p' : Payload F) (s s' : Vis F)
    (l z z' : List Bool) (pos pos' : Int), c.unpacker ≠ .json → noBaseL ns = true →
    s.r = .bin ⟨l ++ z, pos⟩ → s'.r = .bin ⟨z, pos'⟩ →
    Vis.decodeSubsets c (.base d ns) k p s = (.ok p', s') →
    Vis.decodeSubsets c (.base d ns) k p { s with r := .bin ⟨l ++ z', pos⟩ } =
      (.ok p', { s' with r := .bin ⟨z', pos'⟩ })

namespace PayloadExample

/-- 206012, a local descriptor of 12 bits -/
def local12 : Ast := .base rootDescriptor [.skipLocal (plain 206012) [.element (plain 63250) false]]

/-- The visitor before the first subset, on a list of bits. -/
def onBits (l : List Bool) : Vis ToyFloat := { start [] with r := .bin ⟨l, 0⟩ }

def run12 (l : List Bool) : Outcome (Payload ToyFloat) × Vis ToyFloat :=
  Vis.decodeSubsets cfg local12 1 ⟨[], false⟩ (onBits l)

def ones (n : Nat) : List Bool := List.replicate n true

/-- Cut after eight of twelve bits, decoding succeeds with a nil value. -/
theorem run12_cut : values (run12 (ones 8)) = some [[.binary none]] ∧
    (run12 (ones 8)).2.r = .bin ⟨[], 12⟩ := by decide +kernel

theorem run12_more : values (run12 (ones 12)) = some [[.binary (some ⟨[0xff, 0x0f], 12⟩)]] ∧
    (run12 (ones 12)).2.r = .bin ⟨[], 12⟩ := by decide +kernel

end PayloadExample

open PayloadExample in
/-- C80 is violated: a bit string cut off by the end of the input decodes to a nil value, without
an error; with more input it decodes to something else. -/
theorem C80_violates : ¬ C80_statement := by
  intro h
  rcases hr : run12 (ones 8) with ⟨o, s'⟩
  have h1 := run12_cut
  rw [hr] at h1
  cases o with
  | ok p' =>
    have := h ToyFloat cfg _ _ 1 _ p' (onBits (ones 8)) s' (ones 8) [] (ones 4) 0 12 (by decide)
      (by decide) rfl h1.2 hr
    have h2 : run12 (ones 12) = (.ok p', { s' with r := .bin ⟨ones 4, 12⟩ }) := this
    have h3 := run12_more.2
    rw [h2] at h3
    cases h3
  | err e => cases h1.1
  | panic w => cases h1.1
  | diverge => cases h1.1

/-- No value of a payload is the nil pointer that `ReadBinary` returns when the input ends. -/
def NoNilPayload (p : Payload F) : Prop := ∀ x ∈ p.subsets, ∀ y ∈ x.cells, y.v ≠ .binary none

theorem reset_frame (c : VisCfg) (s : Vis F) (r : Reader F) :
    Vis.reset c { s with r := r } = ((Vis.reset c s).1,
      if (Vis.reset c s).1 = .ok () then { (Vis.reset c s).2 with r := r } else { s with r := r }) := by
  unfold Vis.reset
  split <;> simp

/-- Decoding subsets depends on the bits it consumes. -/
theorem decodeSubsets_local [GoFloat F] (hj : c.unpacker ≠ .json) {ns : List Ast} (hns : noBaseL ns = true) (d : Desc) :
    ∀ (k : Nat) (p p' : Payload F) (s s' : Vis F) (src : List Bool) (pos : Int), s.r = .bin ⟨src, pos⟩ →
      Vis.decodeSubsets c (.base d ns) k p s = (.ok p', s') →
      ∃ src' pos', s'.r = .bin ⟨src', pos'⟩ ∧ src'.length ≤ src.length ∧ (∀ x ∈ p.subsets, x ∈ p'.subsets) ∧
        (8 ≤ src'.length ∨ NoNilPayload p' → ∃ l, src = l ++ src' ∧ ∀ z δ,
          Vis.decodeSubsets c (.base d ns) k p { s with r := .bin ⟨l ++ z, pos + δ⟩ } =
            (.ok p', { s' with r := .bin ⟨z, pos' + δ⟩ }))
  | 0, p, p', s, s', src, pos, hs, h => by
    simp only [Vis.decodeSubsets, M.pure_apply, Prod.mk.injEq, Outcome.ok.injEq] at h
    obtain ⟨rfl, rfl⟩ := h
    exact ⟨src, pos, hs, Nat.le_refl _, fun _ h => h, fun _ => ⟨[], rfl, fun z δ => rfl⟩⟩
  | k + 1, p, p', s, s', src, pos, hs, h => by
    obtain ⟨s1, root, h1, h2, h3⟩ := decodeSubsets_succ.1 h
    simp only [Vis.visit] at h1
    obtain ⟨_, s0, h0, h1⟩ := M.bind_eq_ok.1 h1
    have hfr := reset_frame c s
    rw [h0] at hfr
    simp only [if_true] at hfr
    have e0 : s0.r = .bin ⟨src, pos⟩ := by
      rw [← hs]
      unfold Vis.reset at h0
      split at h0
      · cases h0
      · cases h0; rfl
    obtain ⟨src1, pos1, e1, l1, n1, k1⟩ := (VLocal.closed hj).visitL ns hns s0 src pos () s1 e0 h1
    obtain ⟨src2, pos2, e2, l2, n2, k2⟩ := decodeSubsets_local hj hns d k _ _ _ _ _ _ e1 h3
    refine ⟨src2, pos2, e2, by omega, fun x hx => n2 x ?_, fun hg => ?_⟩
    · rw [addSubsets_subsets]; exact List.mem_append_left _ hx
    · obtain ⟨u2, rfl, q2⟩ := k2 hg
      obtain ⟨u1, rfl, q1⟩ := k1 (by
        rcases hg with hg | hg
        · left; omega
        · right
          cases hc1 : s1.cells with
          | tissues ts => trivial
          | flat cs =>
            rw [hc1] at n2
            intro y hy
            exact hg ⟨(p.subsets.length : Int), cs, root, s1.heap⟩ (n2 _ (by
              rw [addSubsets_subsets]
              simp [subsetsOf])) y hy)
      refine ⟨u1 ++ u2, by rw [List.append_assoc], fun z δ => ?_⟩
      refine decodeSubsets_succ.2 ⟨{ s1 with r := .bin ⟨u2 ++ z, pos1 + δ⟩ }, root, ?_, ?_, ?_⟩
      · simp only [Vis.visit]
        rw [M.bind_ok (hfr _), List.append_assoc, q1]
      · unfold Vis.treeRoot at h2 ⊢
        split at h2
        · rename_i hst
          simp only [Prod.mk.injEq, Outcome.ok.injEq] at h2
          obtain ⟨rfl, _⟩ := h2
          rw [if_pos (by exact hst)]
        · cases h2
      · exact q2 z δ

/-- C80. It holds if a byte is left after decoding or no decoded value is nil, for every input,
at every position of the reader.  (Missing: bit strings of 206YYY that the end of the input cuts
off, for which it is violated.) -/
theorem C80_partial [GoFloat F] (hj : c.unpacker ≠ .json) {ns : List Ast} (hns : noBaseL ns = true) (d : Desc) (k : Nat)
    (p p' : Payload F) (s s' : Vis F) (src z : List Bool) (pos pos' : Int)
    (hs : s.r = .bin ⟨src, pos⟩) (hs' : s'.r = .bin ⟨z, pos'⟩)
    (h : Vis.decodeSubsets c (.base d ns) k p s = (.ok p', s')) (hg : 8 ≤ z.length ∨ NoNilPayload p') :
    ∃ l, src = l ++ z ∧ ∀ (z' : List Bool) (δ : Int),
      Vis.decodeSubsets c (.base d ns) k p { s with r := .bin ⟨l ++ z', pos + δ⟩ } =
        (.ok p', { s' with r := .bin ⟨z', pos' + δ⟩ }) := by
  obtain ⟨src2, pos2, e2, l2, n2, k2⟩ := decodeSubsets_local hj hns d k p p' s s' src pos hs h
  rw [hs'] at e2
  cases e2
  exact k2 hg

/-- C80. This covers all templates the parser accepts. -/
theorem C80_parsed_partial [GoFloat F] (hj : c.unpacker ≠ .json) {lk : Lookup} (hg : GoodLookup lk) {ids : List ID}
    {fuel : Nat} {t : Ast} (ht : parse lk fuel ids = .ok t) (k : Nat)
    (p p' : Payload F) (s s' : Vis F) (l z z' : List Bool) (pos pos' : Int)
    (hs : s.r = .bin ⟨l ++ z, pos⟩) (hs' : s'.r = .bin ⟨z, pos'⟩)
    (h : Vis.decodeSubsets c t k p s = (.ok p', s')) (hz : 8 ≤ z.length ∨ NoNilPayload p') :
    Vis.decodeSubsets c t k p { s with r := .bin ⟨l ++ z', pos⟩ } = (.ok p', { s' with r := .bin ⟨z', pos'⟩ }) := by
  obtain ⟨ns, f', rfl, _⟩ := parse_ok_iff.1 ht
  obtain ⟨l', e, q⟩ := C80_partial hj (parse_noBase hg ⟨fuel, ht⟩) _ k p p' s s' _ z pos pos' hs hs' h hz
  have := List.append_cancel_right e
  subst this
  simpa using q z' 0

open PayloadExample in
/-- A payload with a bit string, and bits left. -/
example : values (run12 (ones 12 ++ [false, true])) = some [[.binary (some ⟨[0xff, 0x0f], 12⟩)]] ∧
    (run12 (ones 12 ++ [false, true])).2.r = .bin ⟨[false, true], 12⟩ := by decide +kernel

/-! ## C53 -/

open Spec in
/-- C53, the property: the `Nbits` of a payload field is the number of bits it was decoded from,
and the sum of the bits of its values. -/
def C53_statement : Prop :=
  ∀ (F : Type) [GoFloat F] (c : FacCfg) (s s' : Fac F) (m : Message F) (front : List (Section F)) (sec : Section F)
    (g : ChainGroup) (name : GoString) (nsubsets : Int) (compressed : Bool) (f : Field F)
    (src src' : List Bool) (pos pos' : Int), c.inputType = .binary → s.message = some m →
    m.sections = front ++ [sec] → s.tableGroup = some g →
    s.r = .bin ⟨src, pos⟩ → s'.r = .bin ⟨src', pos'⟩ →
    Fac.newPayloadField c name nsubsets compressed s = (.ok f, s') →
    ∃ p, f.value = .payload p ∧ f.nbits = payloadBits p ∧ f.nbits = (src.length : Int) - src'.length

/-- No value of the payload was cut off by the end of the input, no width is negative and no signed
code has the width 0. -/
def GoodPayload (p : Payload F) : Prop := ∀ x ∈ p.subsets, Spec.goodCells x.heap x.cells

theorem sound_reset (hc : CfgOk c) (hb : c.inputType = .binary) {s s0 : Vis F} (h : Vis.reset c s = (.ok (), s0)) :
    Sound c s0 ∧ s0.r = s.r ∧ costOf s0 = 0 := by
  unfold Vis.reset at h
  split at h
  · cases h
  · rename_i hn
    simp only [Prod.mk.injEq, true_and] at h
    subst h
    refine ⟨⟨?_, ?_⟩, rfl, ?_⟩
    · intro x hx
      by_cases hcc : c.compressed = true ∧ c.inputType = .binary
      · simp only [if_pos hcc] at hx
        cases hk : c.nsubsets.toNat <;> simp [hk, firstOf, List.replicate_succ] at hx
      · simp [if_neg hcc, firstOf] at hx
    · rcases cfg_cases hc with ⟨h1, h2, fuel, hu⟩ | ⟨h1, ⟨h2, hu⟩ | ⟨h2, hu⟩⟩
      · simp only [h1, h2, and_self, if_true]
        have h0 : ¬ c.nsubsets < 0 := fun h => hn ⟨h1, h2, h⟩
        cases hk : c.nsubsets.toNat with
        | zero => exact ⟨fuel, by rw [hu]; congr 1; omega⟩
        | succ k =>
          simp only [List.replicate_succ, firstOf, List.length_replicate]
          exact ⟨fuel, by rw [hu]; congr 1; omega⟩
      · simp only [if_neg h1]
        exact hu
      · rw [hb] at h2; cases h2
    · unfold costOf Spec.cellsBits
      by_cases hcc : c.compressed = true ∧ c.inputType = .binary
      · simp only [if_pos hcc]
        cases hk : c.nsubsets.toNat <;> simp [firstOf, List.replicate_succ]
      · simp [if_neg hcc, firstOf]

/-- Decoding one subset, or the compressed subsets, takes the bits of its values. -/
theorem visit_accounts [GoFloat F] (hc : CfgOk c) (hb : c.inputType = .binary) {ns : List Ast} (hns : noBaseL ns = true)
    (d : Desc) {s s1 : Vis F} {src : List Bool} {pos : Int} (hs : s.r = .bin ⟨src, pos⟩)
    (h : Vis.visit c (.base d ns) s = (.ok (), s1)) :
    Sound c s1 ∧ ∃ src' pos', s1.r = .bin ⟨src', pos'⟩ ∧ pos' - pos = costOf s1 ∧
      (Fine s1 → (src.length : Int) - src'.length = costOf s1) := by
  have hj : c.unpacker ≠ .json := by
    rcases cfg_cases hc with ⟨h1, h2, fuel, hu⟩ | ⟨h1, ⟨h2, hu⟩ | ⟨h2, hu⟩⟩
    · rw [hu]; simp
    · rw [hu]; simp
    · rw [hb] at h2; cases h2
  simp only [Vis.visit] at h
  obtain ⟨_, s0, h0, h1⟩ := M.bind_eq_ok.1 h
  obtain ⟨a1, a2, a3⟩ := sound_reset hc hb h0
  obtain ⟨b1, src', pos', b2, b3, b4⟩ := (Accounts.closed hj).visitL ns hns s0 src pos () s1 a1 (a2.trans hs) h1
  exact ⟨b1, src', pos', b2, by omega, fun hf => by have := (b4 hf).2; omega⟩

/-- Uncompressed data: subset by subset. -/
theorem subsets_account [GoFloat F] (hc : CfgOk c) (hb : c.inputType = .binary) (hu : c.compressed = false)
    {ns : List Ast} (hns : noBaseL ns = true) (d : Desc) :
    ∀ (k : Nat) (p p' : Payload F) (s s' : Vis F) (src : List Bool) (pos : Int), p.compressed = false →
      s.r = .bin ⟨src, pos⟩ → Vis.decodeSubsets c (.base d ns) k p s = (.ok p', s') →
      p'.compressed = false ∧ (∀ x ∈ p.subsets, x ∈ p'.subsets) ∧ ∃ src' pos', s'.r = .bin ⟨src', pos'⟩ ∧
        pos' - pos = Spec.payloadBits p' - Spec.payloadBits p ∧
        (GoodPayload p' → (src.length : Int) - src'.length = Spec.payloadBits p' - Spec.payloadBits p)
  | 0, p, p', s, s', src, pos, hp, hs, h => by
    simp only [Vis.decodeSubsets, M.pure_apply, Prod.mk.injEq, Outcome.ok.injEq] at h
    obtain ⟨rfl, rfl⟩ := h
    exact ⟨hp, fun _ h => h, src, pos, hs, by omega, fun _ => by omega⟩
  | k + 1, p, p', s, s', src, pos, hp, hs, h => by
    obtain ⟨s1, root, h1, h2, h3⟩ := decodeSubsets_succ.1 h
    obtain ⟨a1, src1, pos1, a2, a3, a4⟩ := visit_accounts hc hb hns d hs h1
    have hunp : c.unpacker = .uncompress := by
      rcases cfg_cases hc with ⟨h1, _⟩ | ⟨_, ⟨_, h⟩ | ⟨h2, _⟩⟩
      · rw [hu] at h1; cases h1
      · exact h
      · rw [hb] at h2; cases h2
    cases hcells : s1.cells with
    | tissues ts =>
      exfalso
      have := a1.unpacker
      rw [hcells, hunp] at this
      cases ts <;> simp [firstOf] at this
    | flat cs =>
      rw [hcells] at h3
      have hq : (Vis.addSubsets s1.heap root (.flat cs) p).compressed = false := hp
      obtain ⟨b0, b1, src2, pos2, b2, b3, b4⟩ := subsets_account hc hb hu hns d k _ _ _ _ _ _ hq a2 h3
      have hmem : ∀ x ∈ (Vis.addSubsets s1.heap root (.flat cs) p).subsets, x ∈ p'.subsets := b1
      have hcost : Spec.payloadBits (Vis.addSubsets s1.heap root (.flat cs) p) = Spec.payloadBits p + costOf s1 := by
        unfold Spec.payloadBits costOf
        rw [hq, hp, addSubsets_subsets, hcells]
        simp [subsetsOf, firstOf]
      refine ⟨b0, fun x hx => hmem x ?_, src2, pos2, b2, by omega, fun hg => ?_⟩
      · rw [addSubsets_subsets]; exact List.mem_append_left _ hx
      · have h4 := b4 hg
        have h5 := a4 (by
          unfold Fine
          rw [hcells]
          exact hg ⟨(p.subsets.length : Int), cs, root, s1.heap⟩ (hmem _ (by
            rw [addSubsets_subsets]
            simp [subsetsOf])))
        omega

/-- The bits a payload is decoded from. -/
theorem payload_accounts [GoFloat F] (hc : CfgOk c) (hb : c.inputType = .binary) {ns : List Ast} (hns : noBaseL ns = true)
    (d : Desc) (k : Nat) (hk : c.compressed = true → k = 1) (p : Payload F) (s s' : Vis F) (src : List Bool) (pos : Int)
    (hs : s.r = .bin ⟨src, pos⟩) (h : Vis.decodeSubsets c (.base d ns) k { compressed := c.compressed } s = (.ok p, s')) :
    ∃ src' pos', s'.r = .bin ⟨src', pos'⟩ ∧ pos' - pos = Spec.payloadBits p ∧
      (GoodPayload p → (src.length : Int) - src'.length = Spec.payloadBits p) := by
  cases hcomp : c.compressed with
  | false =>
    rw [hcomp] at h
    obtain ⟨_, _, src', pos', h1, h2, h3⟩ := subsets_account hc hb hcomp hns d k _ p s s' src pos rfl hs h
    have e : Spec.payloadBits (⟨[], false⟩ : Payload F) = 0 := rfl
    rw [e] at h2 h3
    exact ⟨src', pos', h1, by omega, fun hg => by have := h3 hg; omega⟩
  | true =>
    have := hk hcomp
    subst this
    rw [hcomp] at h
    obtain ⟨s1, root, h1, h2, h3⟩ := decodeSubsets_succ.1 h
    obtain ⟨a1, src1, pos1, a2, a3, a4⟩ := visit_accounts hc hb hns d hs h1
    simp only [Vis.decodeSubsets, M.pure_apply, Prod.mk.injEq, Outcome.ok.injEq] at h3
    obtain ⟨rfl, rfl⟩ := h3
    cases hcells : s1.cells with
    | flat cs =>
      exfalso
      have := a1.unpacker
      rw [hcells] at this
      dsimp only [firstOf] at this
      rcases cfg_cases hc with ⟨_, _, fuel, hu⟩ | ⟨h, _⟩
      · rw [hu] at this; cases this
      · exact h ⟨hcomp, hb⟩
    | tissues ts =>
      have hpc : (Vis.addSubsets s1.heap root (.tissues ts) (⟨[], true⟩ : Payload F)).compressed = true := by
        have : ∀ (ts : List (List (Cell F))) (q : Payload F),
            (ts.foldl (fun p t => p.add root t s1.heap) q).compressed = q.compressed := by
          intro ts
          induction ts with
          | nil => intro q; rfl
          | cons t ts ih => intro q; rw [List.foldl_cons, ih]; rfl
        exact this ts _
      have hcost : Spec.payloadBits (Vis.addSubsets s1.heap root (.tissues ts) (⟨[], true⟩ : Payload F)) = costOf s1 := by
        unfold Spec.payloadBits costOf
        rw [hpc, addSubsets_subsets, hcells]
        cases ts with
        | nil => rfl
        | cons t ts => simp [subsetsOf, firstOf]
      refine ⟨src1, pos1, a2, by omega, fun hg => ?_⟩
      rw [hcost]
      apply a4
      unfold Fine
      rw [hcells]
      cases ts with
      | nil => intro x hx; simp [firstOf] at hx
      | cons t ts =>
        exact hg ⟨0, t, root, s1.heap⟩ (by
          rw [addSubsets_subsets]
          simp [subsetsOf])

/-- C53. The `Nbits` of a payload field is always the sum of the bits of its values, as the nodes
record them, and the difference of the positions of the reader; it is the number of bits consumed if no
value was cut off by the end of the input, no width is negative and no signed code has the width 0.
(Missing: the latter cases, for which it is violated.) -/
theorem C53_partial [GoFloat F] (c : FacCfg) (s s' : Fac F) (m : Message F) (front : List (Section F)) (sec : Section F)
    (g : ChainGroup) (name : GoString) (nsubsets : Int) (compressed : Bool) (f : Field F) (src : List Bool) (pos : Int)
    (hb : c.inputType = .binary) (hm : s.message = some m) (hl : m.sections = front ++ [sec])
    (hg : s.tableGroup = some g) (hs : s.r = .bin ⟨src, pos⟩)
    (h : Fac.newPayloadField c name nsubsets compressed s = (.ok f, s')) :
    ∃ p src' pos', s'.r = .bin ⟨src', pos'⟩ ∧ f.value = .payload p ∧ f.nbits = Spec.payloadBits p ∧
      f.nbits = pos' - pos ∧ (GoodPayload p → f.nbits = (src.length : Int) - src'.length) := by
  have h' : raise (Fac.newPayloadField c name nsubsets compressed) s = (.ok f, s') := by
    unfold raise M.wrapErr
    rw [h]
  obtain ⟨tree, p, s1, h1, _, h3, rfl, rfl⟩ := newPayloadField_ok hm hl h'
  unfold Fac.parseTemplate at h1
  cases hut : s.ut with
  | none => rw [hut] at h1; cases h1
  | some ut =>
    rw [hut] at h1
    have h1 := (Prod.mk.inj h1).1
    have hp : parse (Fac.lookup s) c.fuel ut.ids = .ok tree := by
      cases hpp : parse (Fac.lookup s) c.fuel ut.ids with
      | ok t => rw [hpp] at h1; simpa [Outcome.wrapErr] using h1
      | err e => rw [hpp] at h1; cases h1
      | panic w => rw [hpp] at h1; cases h1
      | diverge => rw [hpp] at h1; cases h1
    have hlk : Fac.lookup s = g.lookup := by unfold Fac.lookup; rw [hg]
    rw [hlk] at hp
    obtain ⟨ns, f', rfl, _⟩ := parse_ok_iff.1 hp
    have hns := parse_noBase (good_chain g) ⟨c.fuel, hp⟩
    unfold Fac.decodePayload at h3
    obtain ⟨vc, s5, h4, h5⟩ := M.bind_eq_ok.1 h3
    simp only [M.lift_apply, Prod.mk.injEq] at h4
    obtain ⟨h4, rfl⟩ := h4
    have hvc : CfgOk vc ∧ vc.inputType = .binary ∧ vc.compressed = compressed := by
      have h6 := h4
      unfold newDeserializeVisitor at h4
      cases hu : newUnpacker c.fuel nsubsets compressed c.inputType with
      | ok u =>
        rw [hu] at h4
        cases h4
        exact ⟨⟨c.fuel, h6⟩, hb, rfl⟩
      | err e => rw [hu] at h4; cases h4
      | panic w => rw [hu] at h4; cases h4
      | diverge => rw [hu] at h4; cases h4
    obtain ⟨v1, v2, rfl⟩ := hvc
    simp only [M.zoom, Prod.mk.injEq] at h5
    obtain ⟨h5, h6⟩ := h5
    obtain ⟨src', pos', k1, k2, k3⟩ := payload_accounts v1 v2 hns _ _ (by
      intro hc
      rw [if_pos ⟨hc, hb⟩]
      rfl) p _ _ src pos (by exact hs) (eq_of_fst h5)
    have e1 : s1.r = .bin ⟨src', pos'⟩ := by rw [← h6]; exact k1
    refine ⟨p, src', pos', e1, rfl, ?_, ?_, ?_⟩
    · show s1.r.pos - s.r.pos = _
      rw [e1, hs]
      exact k2
    · show s1.r.pos - s.r.pos = _
      rw [e1, hs]
      rfl
    · intro hgp
      show s1.r.pos - s.r.pos = _
      rw [e1, hs, k3 hgp]
      exact k2

namespace PayloadExample

/-- No tables are needed. -/
def facCfg : FacCfg := ⟨⟨fun _ => .err (.msg ""), fun _ => .err (.msg "")⟩, .binary, false, false, 64⟩

/-- A factory in the data section, whose template has the given descriptors: 001001 has four bits, 002001 is a
signed code of no bits. -/
def inData (ids : List ID) (l : List Bool) : Fac ToyFloat :=
  ⟨.bin ⟨l, 0⟩, some { (newMessage [] : Message ToyFloat) with sections := [⟨4, [], 0, 0, []⟩] },
    some ⟨ids, 2, 6, 8⟩,
    some ⟨[⟨⟨[], [(1001, { (default : Bentry) with unit := .nonnegCode, nbits := 4 }),
      (2001, { (default : Bentry) with unit := .code, nbits := 0 })]⟩, ⟨[], []⟩⟩]⟩⟩

/-- The values, `Nbits` and the bits left. -/
def accounts : Outcome (Field ToyFloat) × Fac ToyFloat → Option (List (List (Val ToyFloat)) × Int × Reader ToyFloat)
  | (.ok ⟨_, .payload p, n, _⟩, s) => some (p.subsets.map fun x => x.cells.map Cell.v, n, s.r)
  | _ => none

/-- 206012 with eight bits left -/
def cut12 : Outcome (Field ToyFloat) × Fac ToyFloat :=
  Fac.newPayloadField facCfg [] 1 false (inData [206012, 63250] (ones 8))

/-- 002001 -/
def code0 : Outcome (Field ToyFloat) × Fac ToyFloat :=
  Fac.newPayloadField facCfg [] 1 false (inData [2001] (ones 8))

theorem cut12_accounts : accounts cut12 = some ([[.binary none]], 12, .bin ⟨[], 12⟩) := by decide +kernel
theorem code0_accounts : accounts code0 = some ([[.int 0]], 0, .bin ⟨ones 7, 0⟩) := by decide +kernel

theorem accounts_some {x : Outcome (Field ToyFloat) × Fac ToyFloat} {vs : List (List (Val ToyFloat))} {n : Int}
    {r : Reader ToyFloat} (h : accounts x = some (vs, n, r)) :
    ∃ f s, x = (.ok f, s) ∧ f.nbits = n ∧ s.r = r := by
  unfold accounts at h
  split at h
  · simp only [Option.some.injEq, Prod.mk.injEq] at h
    exact ⟨_, _, rfl, h.2.1, h.2.2⟩
  · cases h

end PayloadExample

open PayloadExample in
/-- C53 is violated: a bit string cut off by the end of the input counts in full. -/
theorem C53_violates : ¬ C53_statement := by
  intro h
  obtain ⟨f, s, h1, h2, h3⟩ := accounts_some cut12_accounts
  obtain ⟨p, _, _, h4⟩ := h ToyFloat facCfg (inData [206012, 63250] (ones 8)) s _ [] _ _ [] 1 false f (ones 8) [] 0 12 rfl
    rfl rfl rfl rfl h3 h1
  rw [h2] at h4
  revert h4
  decide

open PayloadExample in
/-- C53 is violated also by signed codes of no bits: the sign bit is read, but not counted. -/
theorem C53_violates_code : ¬ C53_statement := by
  intro h
  obtain ⟨f, s, h1, h2, h3⟩ := accounts_some code0_accounts
  obtain ⟨p, _, _, h4⟩ := h ToyFloat facCfg (inData [2001] (ones 8)) s _ [] _ _ [] 1 false f (ones 8) (ones 7) 0 0 rfl
    rfl rfl rfl rfl h3 h1
  rw [h2] at h4
  revert h4
  decide

open PayloadExample in
/-- Two subsets with 206004 and 001001: eight bits each. -/
example : accounts (Fac.newPayloadField facCfg [] 2 false (inData [206004, 63250, 1001] (ones 17))) =
    some ([[.binary (some ⟨[15], 4⟩), .nil], [.binary (some ⟨[15], 4⟩), .nil]], 16, .bin ⟨ones 1, 16⟩) := by
  decide +kernel

open PayloadExample in
/-- Three compressed subsets: minimum 1, width 2, differences 0, 1 and missing. -/
example : accounts (Fac.newPayloadField facCfg [] 3 true (inData [1001]
      ([false, false, false, true] ++ [false, false, false, false, true, false] ++ [false, false, false, true, true, true]))) =
    some ([[.uint 1], [.uint 2], [.nil]], 16, .bin ⟨[], 16⟩) := by
  decide +kernel

end Gobufr
