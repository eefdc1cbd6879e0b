import Verif.Proofs.Root
import Verif.Props.PayloadTree

/-!
# Properties of payload decoding: the members of the root (C112)
-/

namespace Gobufr
open Spec TemplateSpec ParserSpec Flat

variable {F : Type} {c : VisCfg}

/-- **C112**.  The members of the root of every decoded subset are, in order, the nodes of the template that
are not in sequences and replications, as `MembersL` says, each in the order of decoding. -/
theorem C112_members [GoFloat F] {ns : List Ast} (hns : noBaseL ns = true) (d : Desc) (k : Nat) (b : Bool) (s s' : Vis F)
    (p : Payload F) (h : Vis.decodeSubsets c (.base d ns) k { compressed := b } s = (.ok p, s')) :
    ∀ x ∈ p.subsets, ∃ (es : List RootMember) (k' : Nat) (ms : List NodeId), MembersL c.compatible (fromJson c) 0 ns es k' ∧
      membersOf x.heap x.root = ms.map some ∧ ms.map (shownAt x.heap) = es.map some ∧ ms.Pairwise (· < ·) := by
  refine decodeSubsets_mem (Q := fun x => ∃ (es : List RootMember) (k' : Nat) (ms : List NodeId),
    MembersL c.compatible (fromJson c) 0 ns es k' ∧ membersOf x.heap x.root = ms.map some ∧
    ms.map (shownAt x.heap) = es.map some ∧ ms.Pairwise (· < ·)) ?_ k _ p s s' (by simp) h
  intro s s1 h1 root hroot cs hcs i
  simp only [Vis.visit] at h1
  obtain ⟨_, s0, h0, h1⟩ := M.bind_eq_ok.1 h1
  have hs0 : s0.assoc = [] ∧ s0.node = 0 ∧ s0.heap = [⟨.block, []⟩] ∧ s0.stack = [] ∧ s0.bm = {} ∧ allNodes s0 = [] := by
    unfold Vis.reset at h0
    split at h0
    · cases h0
    · rw [← (Prod.mk.inj h0).2]
      refine ⟨rfl, rfl, rfl, rfl, rfl, ?_⟩
      unfold allNodes
      simp only []
      split <;> simp [subsetsOf]
  obtain ⟨e1, e2, e3, e4, e5, e6⟩ := hs0
  have hg : Rooted s0 := ⟨by rw [e3]; simp, by rw [e6]; simp, by rw [e5]; simp⟩
  obtain ⟨es, hm, a⟩ := visitL_does (c := c) ns hns s0 s1 hg h1
  have hroot' : root = 0 := by
    unfold Vis.treeRoot at hroot
    rw [a.stack, e4] at hroot
    simp only [List.isEmpty_nil, if_true, Prod.mk.injEq, Outcome.ok.injEq, and_true] at hroot
    rw [← hroot, a.node, e2]
  obtain ⟨new, n1, n2, _, n4⟩ := a.members
  rw [e1] at hm
  rw [if_pos e2] at n2
  refine ⟨es, _, new, hm, ?_, n2, n4⟩
  rw [hroot']
  simp only [n1, e3]
  rfl

/-! ## Without associated fields -/

theorem times_det {j : Bool} {ms : List Ast} {f : List RootMember}
    (hm : ∀ {es : List RootMember} {k' : Nat}, MembersL false j 0 ms es k' → es = f ∧ k' = 0) :
    ∀ (n : Nat) {k' : Nat}, Times false j n 0 ms k' → k' = 0
  | 0, _, h => by cases h; rfl
  | n + 1, _, h => by
    cases h with
    | succ h1 h2 =>
      obtain ⟨_, e⟩ := hm h1
      subst e
      exact times_det hm n h2

mutual
theorem members_det {j : Bool} : (t : Ast) → (∀ n ∈ nodes t, ¬ IsField n) → ∀ {es : List RootMember} {k' : Nat},
    Members false j 0 t es k' → es = shownBy t ∧ k' = 0
  | .base _ _, _, _, _, h => by cases h
  | .element d np, _, es, k', h => by
    cases h
    · exact ⟨rfl, rfl⟩
    · refine ⟨?_, rfl⟩
      simp [shownBy, Spec.value]
  | .e031021 d, _, _, _, h => by cases h; exact ⟨rfl, rfl⟩
  | .sequence d ms, hf, _, _, h => by
    cases h with
    | sequence h => exact ⟨rfl, (membersL_det ms (fun n hn => hf n (by simp [nodes, hn])) h).2⟩
  | .fixedRepl d ms, hf, _, _, h => by
    cases h with
    | fixed h => exact ⟨rfl, times_det (membersL_det ms (fun n hn => hf n (by simp [nodes, hn]))) _ h⟩
  | .delayedRepl d [], _, _, _, h => by cases h
  | .delayedRepl d (m :: ms), hf, _, _, h => by
    cases h with
    | delayed h1 h2 =>
      obtain ⟨_, e⟩ := members_det m (fun n hn => hf n (by simp [nodes, nodesL, hn])) h1
      subst e
      exact ⟨rfl, times_det (membersL_det ms (fun n hn => hf n (by simp [nodes, nodesL, hn]))) _ h2⟩
  | .nbitsOffset d, _, _, _, h => by cases h; exact ⟨rfl, rfl⟩
  | .scaleOffset d, _, _, _, h => by cases h; exact ⟨rfl, rfl⟩
  | .newRefval d ms, _, _, _, h => by cases h; exact ⟨by rw [shownBy], rfl⟩
  | .assocField d ms, hf, _, _, _ => absurd trivial (hf (.assocField d ms) (by simp [nodes]))
  | .insertString d, _, _, _, h => by cases h; exact ⟨rfl, rfl⟩
  | .skipLocal d ms, _, _, _, h => by cases h; exact ⟨rfl, rfl⟩
  | .modifyPacking d, _, _, _, h => by cases h; exact ⟨rfl, rfl⟩
  | .setStringLength d, _, _, _, h => by cases h; exact ⟨rfl, rfl⟩
  | .dataNotPresent d ms, hf, _, _, h => by
    cases h with
    | dataNotPresent h =>
      obtain ⟨e1, e2⟩ := membersL_det ms (fun n hn => hf n (by simp [nodes, hn])) h
      exact ⟨by rw [shownBy, e1], e2⟩
  | .assessment d bm as ms, hf, _, _, h => by
    cases h with
    | assessment hz h1 h2 h3 =>
      obtain ⟨e1, f1⟩ := members_det bm (fun n hn => hf n (by simp [nodes, hn])) h1
      subst f1
      obtain ⟨e2, f2⟩ := membersL_det as (fun n hn => hf n (by simp [nodes, hn])) h2
      subst f2
      obtain ⟨e3, f3⟩ := membersL_det ms (fun n hn => hf n (by simp [nodes, hn])) h3
      refine ⟨?_, f3⟩
      cases hz with
      | label _ => rw [shownBy, e1, e2, e3]; rfl
      | value h => cases h
      | lost h => cases h
  | .marker d, _, _, _, h => by cases h; exact ⟨rfl, rfl⟩
  | .cancelBackRef d, _, _, _, h => by cases h; exact ⟨rfl, rfl⟩
  | .cancelBitmap d, _, _, _, h => by cases h; exact ⟨rfl, rfl⟩
  | .bitmap none ms, _, _, _, h => by cases h
  | .bitmap (some d) ms, hf, _, _, h => by
    cases h with
    | recalled hd hz =>
      refine ⟨?_, rfl⟩
      cases hz with
      | label _ => rw [shownBy, if_pos hd]
      | value h => cases h
      | lost h => cases h
    | bitmap hd hz h =>
      obtain ⟨e1, e2⟩ := membersL_det ms (fun n hn => hf n (by simp [nodes, hn])) h
      refine ⟨?_, e2⟩
      cases hz with
      | label _ => rw [shownBy, if_neg hd, e1]; rfl
      | value h => cases h
      | lost h => cases h
theorem membersL_det {j : Bool} : (ts : List Ast) → (∀ n ∈ nodesL ts, ¬ IsField n) → ∀ {es : List RootMember} {k' : Nat},
    MembersL false j 0 ts es k' → es = shownByL ts ∧ k' = 0
  | [], _, _, _, h => by cases h; exact ⟨rfl, rfl⟩
  | t :: ts, hf, _, _, h => by
    cases h with
    | cons h1 h2 =>
      obtain ⟨e1, f1⟩ := members_det t (fun n hn => hf n (by simp [nodesL, hn])) h1
      subst f1
      obtain ⟨e2, f2⟩ := membersL_det ts (fun n hn => hf n (by simp [nodesL, hn])) h2
      exact ⟨by rw [shownByL, e1, e2], f2⟩
end

/-- **C112** (without associated fields, not in compatible mode).  The members of the root are the same for
every subset, whatever the data are: those that the template shows. -/
theorem C112_fixed [GoFloat F] {ns : List Ast} (hns : noBaseL ns = true) (hf : ∀ n ∈ nodesL ns, ¬ IsField n)
    (hc : c.compatible = false) (d : Desc) (k : Nat) (b : Bool) (s s' : Vis F)
    (p : Payload F) (h : Vis.decodeSubsets c (.base d ns) k { compressed := b } s = (.ok p, s')) :
    ∀ x ∈ p.subsets, ∃ ms : List NodeId, membersOf x.heap x.root = ms.map some ∧
      ms.map (shownAt x.heap) = (shownByL ns).map some ∧ ms.Pairwise (· < ·) := by
  intro x hx
  obtain ⟨es, k', ms, h1, h2, h3, h4⟩ := C112_members hns d k b s s' p h x hx
  rw [hc] at h1
  obtain ⟨e, _⟩ := membersL_det ns hf h1
  exact ⟨ms, h2, by rw [h3, e], h4⟩

namespace RootExample
open PayloadExample

/-- An associated field over an element and a replication, then more. -/
def ns : List Ast := [.element e4 false, .assocField (plain 204002) [.e031021 (plain 31021)], .element e8 false,
  .fixedRepl (plain 101002) [.element e4 false], .assocField (plain 204000) [], .nbitsOffset (plain 201132), .element e4 false]

/-- What the root of a subset shows. -/
def shows (x : Outcome (Payload ToyFloat) × Vis ToyFloat) : Option (List (List (Option RootMember))) :=
  match x.1 with
  | .ok p => some (p.subsets.map fun y => (membersOf y.heap y.root).map fun m => m.bind (shownAt y.heap))
  | _ => none

end RootExample

open PayloadExample RootExample in
-- the associated field of the second element comes before it; the replication shows nothing
example : shows (Vis.decodeSubsets cfg (.base rootDescriptor ns) 1 ⟨[], false⟩ (start (List.replicate 9 0x12)))
    = some [[some (Spec.value e4), some (label (plain 204002)), some (Spec.value (plain 31021)),
        some ⟨true, some e8, true⟩, some (Spec.value e8), some (label (plain 204000)), some (label (plain 201132)),
        some (Spec.value e4)]] ∧ noBaseL ns = true := by
  decide +kernel

open PayloadExample RootExample in
-- without associated fields
example : (∀ n ∈ nodesL [.element e4 false, .sequence (plain 301001) [.element e8 false], .insertString (plain 205001)], ¬ IsField n) ∧
    shownByL [.element e4 false, .sequence (plain 301001) [.element e8 false], .insertString (plain 205001)]
      = [Spec.value e4, Spec.value (plain 205001)] ∧ cfg.compatible = false ∧
    shows (Vis.decodeSubsets cfg (.base rootDescriptor [.element e4 false, .sequence (plain 301001) [.element e8 false],
      .insertString (plain 205001)]) 2 ⟨[], false⟩ (start (List.replicate 9 0x12)))
      = some (List.replicate 2 [some (Spec.value e4), some (Spec.value (plain 205001))]) := by
  refine ⟨?_, by decide, by decide, by decide +kernel⟩
  simp [nodesL, nodes, IsField]

end Gobufr
