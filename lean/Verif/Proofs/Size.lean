import Verif.Spec.Size
import Verif.Proofs.Header
import Verif.Proofs.Recast
import Verif.Proofs.Only
import Verif.Props.Accept

/-!
# Lemmas: how many values there are in so many bits
-/

namespace Gobufr
open Spec Layout Flat EncodeSpec UnpackSpec SizeSpec ParserSpec

variable {F : Type}

/-! ## Values that take bits -/

theorem length_le_sum : ∀ {l : List Int}, (∀ x ∈ l, 0 < x) → (l.length : Int) ≤ l.sum
  | [], _ => Int.le_refl _
  | a :: l, h => by
    have h1 := h a List.mem_cons_self
    have h2 := length_le_sum fun x hx => h x (List.mem_cons_of_mem _ hx)
    rw [List.sum_cons, List.length_cons]
    push_cast
    omega

theorem cells_le {n : Option Nat} {x : Subset F}
    (h : ∀ y ∈ x.cells, ∃ k : Node F, x.heap[y.n]? = some k ∧ 0 < Spec.nodeBits n k.kind) :
    (x.cells.length : Int) ≤ Spec.cellsBits n x.heap x.cells := by
  have := length_le_sum (l := x.cells.map fun y => match x.heap[y.n]? with
    | some y => Spec.nodeBits n y.kind
    | none => 0) fun b hb => by
      obtain ⟨y, hy, rfl⟩ := List.mem_map.1 hb
      obtain ⟨k, h1, h2⟩ := h y hy
      rw [h1]
      exact h2
  rw [List.length_map] at this
  exact this

theorem sums_le {f : Subset F → Int} : ∀ {l : List (Subset F)}, (∀ x ∈ l, (x.cells.length : Int) ≤ f x) →
    (((l.map fun x => x.cells.length).sum : Nat) : Int) ≤ (l.map f).sum
  | [], _ => Int.le_refl _
  | a :: l, h => by
    have h1 := h a List.mem_cons_self
    have h2 := sums_le fun x hx => h x (List.mem_cons_of_mem _ hx)
    rw [List.map_cons, List.map_cons, List.sum_cons, List.sum_cons]
    push_cast at h2 ⊢
    omega

theorem places_le {p : Payload F} (h : TakesBits p) : (places p : Int) ≤ payloadBits p := by
  unfold places payloadBits
  unfold TakesBits at h
  cases hc : p.compressed with
  | true =>
    rw [hc] at h
    cases hp : p.subsets with
    | nil => exact Int.le_refl _
    | cons x l =>
      rw [hp] at h
      exact cells_le (h x List.mem_cons_self)
  | false =>
    rw [hc] at h
    exact sums_le fun x hx => cells_le (h x hx)

theorem decodes_consumes [GoFloat F] {c : FacCfg} (hc : c.inputType = .binary) {g : ChainGroup} {ids : List ID} {n : Int}
    {compressed : Bool} {r r' : Reader F} {p : Payload F} (h : DecodesAt c g.lookup ids n compressed r p r') (hr : IsBin r)
    (hg : GoodPayload p) : payloadBits p ≤ Fac.left r := by
  obtain ⟨⟨src, pos⟩, rfl⟩ := hr
  obtain ⟨tree, vc, v', h1, h2, h3, rfl⟩ := h
  rw [hc] at h2
  obtain ⟨ns, f', rfl, _⟩ := parse_ok_iff.1 h1
  have hns := parse_noBase (good_chain g) ⟨c.fuel, h1⟩
  have hvc : Flat.CfgOk vc ∧ vc.inputType = .binary ∧ vc.compressed = compressed := by
    have h6 := h2
    unfold newDeserializeVisitor at h2
    cases hu : newUnpacker c.fuel n compressed .binary with
    | ok u =>
      rw [hu] at h2
      cases h2
      exact ⟨⟨c.fuel, h6⟩, rfl, rfl⟩
    | err e => rw [hu] at h2; cases h2
    | panic w => rw [hu] at h2; cases h2
    | diverge => rw [hu] at h2; cases h2
  obtain ⟨v1, v2, rfl⟩ := hvc
  obtain ⟨src2, pos2, k1, k2, k3⟩ := payload_accounts v1 v2 hns _ _ (by
    intro hc'
    rw [if_pos ⟨hc', hc⟩]
    rfl) p (Fac.freshVis _) v' src pos rfl h3
  have := k3 hg
  show payloadBits p ≤ (src.length : Int)
  omega

/-- What is left when the payload begins. -/
theorem Trace.left_le [GoFloat F] {c : FacCfg} {ds : List FieldDecl} {r : Reader F} (t : Trace c ds r) : Less r t.r4' := by
  have a2 : Less t.r2 t.r3 := by
    have := t.h2
    split at this
    · exact this.less
    · rw [this]; exact .refl _
  have a3 : Less t.r3' t.r3'' := (FLocal.readIds 2 6 8 t.k).less t.hids
  exact ((((((t.h0.less.trans t.h1.less).trans t.p1.less).trans a2).trans t.h3.less).trans a3).trans t.p3.less).trans t.h4.less

/-! ## Many values in no bits -/

namespace Bomb

/-- F, X and Y of the replications, the innermost last. -/
def replications : Nat → List (Nat × Nat × Nat)
  | 0 => []
  | k + 1 => (1, k + 1, 255) :: replications k

/-- 201120: 8 bits less for numbers; the replications; 012001. -/
def descriptors (k : Nat) : List (Nat × Nat × Nat) := (2, 1, 120) :: (replications k ++ [(0, 12, 1)])

/-- An edition 4 message with one subset and no data. -/
def draft (k : Nat) : Draft where
  edition := 4
  head := AcceptExample.numbers [(0, "startSignature", 0x42554652), (0, "totalLengthInBytes", 49 + 2 * k), (0, "bufrEditionNumber", 4),
    (1, "lengthInBytes", 22), (1, "originatingCentre", 1), (1, "masterTableVersion", 13),
    (1, "year", 2020), (1, "month", 1), (1, "day", 1), (3, "lengthInBytes", 11 + 2 * k), (3, "nSubsets", 1),
    (3, "isObservation", 1), (4, "lengthInBytes", 4), (5, "stopSignature", 0x37373737)]
  pad1 := []
  locals := none
  descriptors := descriptors k
  pad3 := []
  data := []
  pad4 := []

theorem sound : ∀ k < 64, (draft k).Sound := by
  have h2 : ∀ k < 64, ∀ x ∈ (draft k).sections, ∀ f ∈ x.fields, f.width.all (fun w => (draft k).head x.number f.name < 2 ^ w) = true := by
    decide +kernel
  have h3 : ∀ k < 64, ∀ x ∈ (draft k).sections, fixed "lengthInBytes" 24 ∈ x.fields →
      (draft k).head x.number "lengthInBytes" * 8 = ((draft k).part x).length := by
    decide +kernel
  have h4 : ∀ k < 64, natBits 32 ((draft k).head 0 "startSignature") = signature.flatMap fun b => natBits 8 b.toNat := by
    decide +kernel
  have h7 : ∀ k < 64, ∀ x ∈ (draft k).descriptors, x.1 < 2 ^ 2 ∧ x.2.1 < 2 ^ 6 ∧ x.2.2 < 2 ^ 8 := by decide +kernel
  exact fun k hk => AcceptExample.sound_of _ (.inr rfl) (h2 k hk) (h3 k hk) (h4 k hk) rfl rfl (h7 k hk) (by show 0 < 16; decide)

theorem size : ∀ k < 64, (draft k).bits.length = 8 * (49 + 2 * k) := by decide +kernel

def temperature : Desc := ⟨12001, .b AcceptExample.temperature⟩

/-- What the replications mean. -/
def tree : Nat → List Ast
  | 0 => [.element temperature false]
  | k + 1 => [.fixedRepl ⟨100255 + 1000 * (k + 1 : Nat), .r (pad06 (100255 + 1000 * (k + 1 : Nat)))⟩ (tree k)]

theorem ids : ∀ k < 64, (replications k ++ [(0, 12, 1)]).length = k + 1 := by decide +kernel

theorem numbers : ∀ k < 64, ID.F (100255 + 1000 * (k : Nat)) = 1 ∧ ID.X (100255 + 1000 * (k : Nat)) = k ∧
    ID.Y (100255 + 1000 * (k : Nat)) = 255 ∧ descriptorNumber (1, k, 255) = 100255 + 1000 * (k : Nat) := by decide +kernel

theorem parses : ∀ k < 64, Derives AcceptExample.group.lookup true {} ((replications k ++ [(0, 12, 1)]).map descriptorNumber) (tree k) {}
  | 0, _ => .leaf (.element rfl rfl (by decide) rfl) .nil
  | k + 1, h => by
    obtain ⟨h1, h2, h3, h4⟩ := numbers (k + 1) h
    have hb := parses k (by omega)
    have hl : AcceptExample.group.lookup (100255 + 1000 * (k + 1 : Nat)) =
        .ok ⟨100255 + 1000 * (k + 1 : Nat), .r (pad06 (100255 + 1000 * (k + 1 : Nat)))⟩ := by
      show (match SingleGroup.lookup _ _ with | .ok d => _ | .err _ => _ | .panic w => _ | .diverge => _) = _
      rw [SingleGroup.lookup, if_neg (by rw [h1]; decide), if_pos h1]
    have := Derives.scope (pad := true) (f := {}) (f' := {}) (rest := []) (ns := []) (j := 0)
      (body := (replications k ++ [(0, 12, 1)]).map descriptorNumber) (.fixed h1 (by rw [h3]; decide) h2) hl
      (by rw [List.length_map, ids k (by omega)]) (.inl rfl) (by simpa using hb) .nil
    rw [List.append_nil, ← h4] at this
    rw [h4] at this
    simpa [replications, tree, h4] using this

theorem parse_all (k : Nat) (hk : k < 64) : ∃ n, ∀ m, n ≤ m →
    parse AcceptExample.group.lookup m ((descriptors k).map descriptorNumber) =
      .ok (.base rootDescriptor (.nbitsOffset ⟨201120, .c (pad06 201120)⟩ :: tree k)) := by
  have h : Derives AcceptExample.group.lookup true {} ((descriptors k).map descriptorNumber)
      (.nbitsOffset ⟨201120, .c (pad06 201120)⟩ :: tree k) {} := .leaf (.nbitsOffset rfl rfl) (parses k hk)
  obtain ⟨n, hn⟩ := (C34_parse_iff _ (good_chain _) _ _).2 h
  refine ⟨n, fun m hm => ?_⟩
  obtain ⟨ns, f', h1, h2⟩ := parse_ok_iff.1 hn
  rw [← parseF_mono (good_chain _) hm _ _ (by rw [h2]; exact fun h => nomatch h)] at h2
  exact parse_ok_iff.2 ⟨ns, f', h1, h2⟩

/-- A context in which numbers of 8 bits are written with none. -/
def Narrow (x : Ctx) : Prop := x.ops = { ({} : Operands) with y201 := 120 } ∧ x.assoc = []

theorem repeats [GoFloat F] {ts : List Ast} {n : Nat} (h : ∀ x, Narrow x → ∃ is : List (Datum F), ∃ y,
    Coded Single false x ts [] is y ∧ is.length = n ∧ Narrow y) : ∀ (k : Nat) (x : Ctx), Narrow x → ∃ is : List (Datum F), ∃ y,
    Coded Single false x (List.replicate k ts).flatten [] is y ∧ is.length = k * n ∧ Narrow y
  | 0, x, hx => ⟨[], x, .nil, by simp, hx⟩
  | k + 1, x, hx => by
    obtain ⟨i1, y, h1, h2, h3⟩ := h x hx
    obtain ⟨i2, z, h4, h5, h6⟩ := repeats h k y h3
    refine ⟨i1 ++ i2, z, ?_, by rw [List.length_append, h2, h5, Nat.add_mul, Nat.one_mul, Nat.add_comm], h6⟩
    rw [List.replicate_succ, List.flatten_cons]
    exact h1.append h4

theorem coded [GoFloat F] : ∀ k < 64, ∀ x, Narrow x → ∃ is : List (Datum F), ∃ y,
    Coded Single false x (tree k) [] is y ∧ is.length = 255 ^ k ∧ Narrow y
  | 0, _, x, ⟨h1, h2⟩ => by
    have h : (x.ops.packing AcceptExample.temperature : PackingInfo F).unit = .numeric ∧
        (x.ops.packing AcceptExample.temperature : PackingInfo F).nbits = ((0 : Nat) : Int) := by
      rw [h1]; exact ⟨rfl, rfl⟩
    have ha : Assocs (F := F) Single temperature (if temperature.id.X = 31 then [] else x.assoc) [] [] := by
      rw [h2, ite_self]
      exact .nil
    have hw := Single.number (info := (x.ops.packing AcceptExample.temperature : PackingInfo F)) (n := 0) (raw := 0) (.inl h.1) h.2
      (by decide) (by decide)
    exact ⟨_, _, Coded.element (d := temperature) rfl ha hw .nil, rfl, h1, h2⟩
  | k + 1, hk, x, hx => by
    obtain ⟨is, y, h1, h2, h3⟩ := repeats (coded k (by omega)) 255 x hx
    refine ⟨is, y, .fixed ?_, by rw [h2, Nat.pow_succ, Nat.mul_comm], h3⟩
    rw [(numbers (k + 1) hk).2.2.1, List.append_nil]
    exact h1

end Bomb
end Gobufr
