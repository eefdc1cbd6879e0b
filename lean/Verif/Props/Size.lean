import Verif.Proofs.Size

/-!
# A message has no more values than bits (C118)
-/

namespace Gobufr
open Spec Layout Flat EncodeSpec UnpackSpec SizeSpec

variable {F : Type}

/-- C118, the property: a message decoded has no more values (columns of values, if it is compressed) than the input has bits, so
that what the decoder stores is bounded by what it is given. -/
def C118_statement (F : Type) [GoFloat F] : Prop := ∀ (c : FacCfg) (s s' : Fac F) (m : Message F) (bs : List UInt8) (q : Int)
  (p : Payload F), c.inputType = .binary → s.r = .bin ⟨BitReader.bitsOfBytes bs, 8 * q⟩ → Runtime.run c s = (.ok m, s') →
  payloadOf m = some p → places p ≤ 8 * bs.length

/-- **C118**, what holds: the bits of the values are bits of the input, if no value was cut off by the end of the input, no width is
negative and no signed code has the width 0; and then, if each value takes bits, there are no more values than bits. -/
theorem C118_partial [GoFloat F] (c : FacCfg) (s s' : Fac F) (m : Message F) (bs : List UInt8) (q : Int)
    (p : Payload F) (hc : c.inputType = .binary) (hs : s.r = .bin ⟨BitReader.bitsOfBytes bs, 8 * q⟩)
    (h : Runtime.run c s = (.ok m, s')) (hp : payloadOf m = some p) (hg : GoodPayload p) :
    payloadBits p ≤ 8 * bs.length ∧ (TakesBits p → places p ≤ 8 * bs.length) := by
  obtain ⟨pre, ds, r, -, hr, -, t, rfl, -⟩ := run_trace_bytes hs h
  have ht : t.p = p := by
    rw [t.payloadOf_eq] at hp
    exact Option.some.inj hp
  subst ht
  obtain ⟨l1, l2, e1, e2⟩ := hr
  have hb : IsBin r := ⟨_, e1⟩
  obtain ⟨b1, b2⟩ := t.left_le hb
  have h1 := decodes_consumes hc t.hp b1 hg
  have h2 : Fac.left r ≤ 8 * bs.length := by
    rw [e1]
    show l2.length ≤ _
    rw [← BitReader.bitsOfBytes_length, e2, List.length_append]
    omega
  have h3 : payloadBits t.p ≤ 8 * bs.length := by omega
  refine ⟨h3, fun ht => ?_⟩
  have := places_le ht
  omega

/-- **C118**, what happens: for every k below 64 there is a message of 49 + 2 k bytes with a template of k + 2 descriptors and no data at
all, which is decoded to 255 ^ k values: 012001 with its 8 bits taken away by 201120, within k replications. -/
theorem C118_bomb [GoFloat F] [LawfulGoFloat F] (k : Nat) (hk : k < 64) : ∃ bs : List UInt8, bs.length = 49 + 2 * k ∧
    ∃ N, ∀ n, N ≤ n → ∀ s : Fac F, s.r = .bin ⟨BitReader.bitsOfBytes bs, 0⟩ →
    ∃ m s' p, Runtime.run { MessageExample.cfg with fuel := n } s = (.ok m, s') ∧ payloadOf m = some p ∧
      p.subsets.map (fun x => x.cells.length) = [255 ^ k] := by
  have hd := Bomb.sound k hk
  obtain ⟨bs, hbs⟩ := draft_bytes hd
  obtain ⟨N, hN⟩ := Bomb.parse_all k hk
  refine ⟨bs, ?_, N, fun n hn s hs => ?_⟩
  · have := congrArg List.length hbs
    rw [Bomb.size k hk, BitReader.bitsOfBytes_length] at this
    omega
  · obtain ⟨is, y, h1, h2, -⟩ := Bomb.coded (F := F) k hk ⟨{ ({} : Operands) with y201 := 120 }, [], [], none, none, none, []⟩ ⟨rfl, rfl⟩
    obtain ⟨m, s', p, k1, -, -, k4, k5⟩ := C89_uncompressed (F := F) { MessageExample.cfg with fuel := n } rfl (Bomb.draft k) hd
      AcceptExample.group AcceptExample.found rootDescriptor _ (hN n hn) [([], is)] rfl
      (fun x hx => by
        rw [List.mem_singleton] at hx
        subst hx
        exact ⟨y, .op201 h1⟩) rfl rfl bs hbs [] [] (by decide) 0 s (by simpa using hs)
    refine ⟨m, s', p, k1, k4, ?_⟩
    have := congrArg (List.map List.length) k5
    simpa [Function.comp_def, reported, written, h2] using this

theorem places_one {p : Payload F} {n : Nat} (h : p.subsets.map (fun x => x.cells.length) = [n]) : places p = n := by
  unfold places
  rw [List.map_eq_singleton_iff] at h
  obtain ⟨x, hx, h⟩ := h
  rw [hx]
  split <;> simp [h]

/-- C118 is violated: a message of 53 bytes is decoded to 65025 values. -/
theorem C118_violates [GoFloat F] [LawfulGoFloat F] : ¬ C118_statement F := by
  intro h
  obtain ⟨bs, h1, N, h2⟩ := C118_bomb (F := F) 2 (by decide)
  obtain ⟨m, s', p, h3, h4, h5⟩ := h2 N (Nat.le_refl _) (Fac.new (.bin ⟨BitReader.bitsOfBytes bs, 0⟩)) rfl
  have := h _ _ _ m bs 0 p rfl rfl h3 h4
  rw [places_one h5, h1] at this
  omega

namespace SizeExample
open MessageExample HeaderExample

/-- The same as `TakesBits`. -/
def allTake (p : Payload ToyFloat) : Bool :=
  p.subsets.all fun x => x.cells.all fun y => match x.heap[y.n]? with
    | some n => decide (0 < Spec.nodeBits (if p.compressed then some p.subsets.length else none) n.kind)
    | none => false

theorem take_of {p : Payload ToyFloat} (h : allTake p = true) : TakesBits p := by
  intro x hx y hy
  have := List.all_eq_true.1 (List.all_eq_true.1 h x hx) y hy
  split at this
  · next n hn => exact ⟨n, hn, by simpa using this⟩
  · cases this

theorem ran : (match (Runtime.run cfg (input (body ++ stop))).1 with
  | .ok m => (payloadOf m).any fun p => allGood p && allTake p && places p == 1
  | _ => false) = true := by decide +kernel

/-- The conditions hold for the message with one number of 8 bits: its 48 bytes have one value. -/
example : ∃ m s' p, Runtime.run cfg (input (body ++ stop)) = (.ok m, s') ∧ payloadOf m = some p ∧ GoodPayload p ∧ TakesBits p ∧
    places p = 1 ∧ payloadBits p ≤ 8 * (body ++ stop).length := by
  have h := ran
  cases hr : Runtime.run cfg (input (body ++ stop)) with
  | mk o s' =>
    rw [hr] at h
    cases o with
    | ok m =>
      have h : ((payloadOf m).any fun p => allGood p && allTake p && places p == 1) = true := h
      cases hp : payloadOf m with
      | none => rw [hp] at h; cases h
      | some p =>
        rw [hp] at h
        have h : (allGood p && allTake p && places p == 1) = true := h
        simp only [Bool.and_eq_true, beq_iff_eq] at h
        exact ⟨m, s', p, rfl, hp, good_of h.1.1, take_of h.1.2, h.2,
          (C118_partial cfg _ s' m _ 0 p rfl rfl hr hp (good_of h.1.1)).1⟩
    | err e => cases h
    | panic w => cases h
    | diverge => cases h

/-- The bomb is there: nine replications make 255 ^ 9 values, more than 4 * 10 ^ 21, of 67 bytes. -/
example : ∃ bs : List UInt8, bs.length = 67 ∧ ∃ c : FacCfg, ∀ s : Fac ToyFloat, s.r = .bin ⟨BitReader.bitsOfBytes bs, 0⟩ →
    ∃ m s' p, Runtime.run c s = (.ok m, s') ∧ payloadOf m = some p ∧ 4 * 10 ^ 21 < places p := by
  obtain ⟨bs, h1, N, h2⟩ := C118_bomb (F := ToyFloat) 9 (by decide)
  refine ⟨bs, h1, { cfg with fuel := N }, fun s hs => ?_⟩
  obtain ⟨m, s', p, h3, h4, h5⟩ := h2 N (Nat.le_refl _) s hs
  exact ⟨m, s', p, h3, h4, by rw [places_one h5]; decide⟩

end SizeExample
end Gobufr
