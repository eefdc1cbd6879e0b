import Verif.Proofs.Unpack
import Verif.Model.FloatInst

/-!
# Properties of the object model: missing values, payloads, fields, cells (C18, C52, C74 - C76)
-/

namespace Gobufr
open Spec

variable {F : Type}

/-! ## C18 -/

/-- C18. For widths 2..64 a value is missing exactly when it is an unsigned number whose low
`n` bits are all set and which has no other bits. -/
theorem C18_missing_iff (v : Val F) (n : Nat) (h2 : 2 ≤ n) (h64 : n ≤ 64) :
    isMissing v n = true ↔
      ∃ u, v = .uint u ∧ u < 2 ^ n ∧ natBits n u = List.replicate n true := by
  cases v with
  | uint u =>
    have hpos := Nat.two_pow_pos n
    constructor
    · intro h
      rw [isMissing_uint u n (by omega) h64] at h
      have hu : u = 2 ^ n - 1 := by simpa using h
      exact ⟨u, rfl, by omega, (natBits_ones n u (by omega)).2 hu⟩
    · rintro ⟨w, hw, hlt, hones⟩
      cases hw
      rw [isMissing_uint u n (by omega) h64, (natBits_ones n u hlt).1 hones]
      simp
  | _ => simp [isMissing]

/-- C18. A one bit (or narrower) field is never missing. -/
theorem C18_one_bit (v : Val F) (n : Int) (h : n ≤ 1) : isMissing v n = false :=
  isMissing_le_one v n h

/-- C18. Only unsigned values are ever missing. -/
theorem C18_non_uint (v : Val F) (n : Int) (h : ∀ u, v ≠ .uint u) : isMissing v n = false := by
  cases v <;> simp_all [isMissing]

/-- C18. `MissingValue` succeeds exactly for the widths 1..64, with the number of all ones. -/
theorem C18_missingValue (n : Int) :
    ((missingValue n).isOk = true ↔ 1 ≤ n ∧ n ≤ 64) ∧
    ∀ v, missingValue n = .ok v → natBits n.toNat v = List.replicate n.toNat true ∧ v < 2 ^ n.toNat := by
  by_cases h : 1 ≤ n ∧ n ≤ 64
  · have hn : n = (n.toNat : Int) := by omega
    have hv : missingValueOfNbits n = some (2 ^ n.toNat - 1) := by
      rw [hn]; exact missingValueOfNbits_eq n.toNat (by omega) (by omega)
    refine ⟨by simp [missingValue, hv, Outcome.isOk, h], fun v hv' => ?_⟩
    simp only [missingValue, hv, Outcome.ok.injEq] at hv'
    have := Nat.two_pow_pos n.toNat
    have hlt : v < 2 ^ n.toNat := by omega
    exact ⟨(natBits_ones _ _ hlt).2 hv'.symm, hlt⟩
  · have hv : missingValueOfNbits n = none := by simp [missingValueOfNbits, h]
    refine ⟨by simp [missingValue, hv, Outcome.isOk, h], fun v hv' => ?_⟩
    simp [missingValue, hv] at hv'

/-- Beyond the 64 bits of the claim zero counts as missing. -/
theorem C18_wide_zero (n : Int) (h : 64 < n) (u : Nat) :
    isMissing (.uint u : Val F) n = decide (u = 0) := by
  have hn : ¬ (1 ≤ n ∧ n ≤ 64) := by omega
  simp only [isMissing, missingValueOfNbits, if_neg hn, Option.getD_none]
  rw [if_pos (by omega)]
  by_cases h0 : u = 0 <;> simp [h0]

example : isMissing (.uint 255 : Val ToyFloat) 8 = true ∧ isMissing (.uint 254 : Val ToyFloat) 8 = false ∧
    missingValue 64 = .ok (2 ^ 64 - 1) := by decide

/-! ## C52 -/

/-- A way to add a subset to a payload. -/
inductive AddOp (F : Type) where
  | subset (s : Subset F)
  | parts (root : NodeId) (cells : List (Cell F)) (heap : Heap F)

/-- One call of `AddSubset` or `Add`. -/
def AddOp.apply (p : Payload F) : AddOp F → Payload F
  | .subset s => p.addSubset s
  | .parts r c h => p.add r c h

/-- The cells, root and nodes an operation brings. -/
def AddOp.content : AddOp F → List (Cell F) × NodeId × Heap F
  | .subset s => (s.cells, s.root, s.heap)
  | .parts r c h => (c, r, h)

/-- C52. After any sequence of additions to an empty payload, the subsets are the added ones in
order, numbered 0, 1, 2, ... -/
theorem C52_numbering (compressed : Bool) (ops : List (AddOp F)) :
    let p := ops.foldl AddOp.apply { compressed := compressed }
    p.subsets.map (·.index) = (List.range ops.length).map (fun (i : Nat) => (i : Int)) ∧
    p.subsets.map (fun s => (s.cells, s.root, s.heap)) = ops.map AddOp.content ∧
    p.compressed = compressed := by
  have key : ∀ (ops : List (AddOp F)) (p : Payload F),
      (ops.foldl AddOp.apply p).subsets.map (·.index)
        = p.subsets.map (·.index)
          ++ (List.range' p.subsets.length ops.length).map (fun (i : Nat) => (i : Int)) ∧
      (ops.foldl AddOp.apply p).subsets.map (fun s => (s.cells, s.root, s.heap))
        = p.subsets.map (fun s => (s.cells, s.root, s.heap)) ++ ops.map AddOp.content ∧
      (ops.foldl AddOp.apply p).compressed = p.compressed := by
    intro ops
    induction ops with
    | nil => intro p; simp
    | cons op ops ih =>
      intro p
      obtain ⟨h1, h2, h3⟩ := ih (AddOp.apply p op)
      simp only [List.foldl_cons]
      rw [h1, h2, h3]
      cases op <;> simp [AddOp.apply, AddOp.content, Payload.addSubset, Payload.add, List.range'_succ]
  have := key ops { compressed := compressed }
  simpa [List.range_eq_range'] using this

example : ([AddOp.parts 0 [] [], .subset ⟨7, [], 3, []⟩].foldl AddOp.apply
    ({ compressed := false } : Payload ToyFloat)).subsets.map (·.index) = [0, 1] := by decide

/-! ## C74 -/

/-- C74. After registering the fields `fs` in order on a new message, asking for `name` gives the
last one registered under that name, and fails if there is none. -/
theorem C74_proxy_last (path : GoString) (fs : List (Field F)) (name : GoString) :
    (∀ pre f post, fs = pre ++ f :: post → f.name = name → (∀ g ∈ post, g.name ≠ name) →
      (fs.foldl Message.setProxyField (newMessage path)).proxyField name = .ok f) ∧
    (((fs.foldl Message.setProxyField (newMessage path)).proxyField name).isErr = true ↔
      ∀ g ∈ fs, g.name ≠ name) := by
  have key : ∀ (fs : List (Field F)) (m : Message F),
      mapGet (fs.foldl Message.setProxyField m).proxyFields name
        = (fs.reverse.find? (fun f => f.name = name)).or (mapGet m.proxyFields name) := by
    intro fs
    induction fs with
    | nil => intro m; simp
    | cons f fs ih =>
      intro m
      rw [List.foldl_cons, ih]
      simp only [Message.setProxyField, mapSet, mapGet, List.reverse_cons, List.find?_append,
        List.find?_cons, List.find?_nil, Option.or_assoc]
      congr 1
      by_cases h : f.name = name <;> simp [h]
  have key0 := key fs (newMessage path)
  simp only [newMessage, mapGet, Option.or_none] at key0
  refine ⟨?_, ?_⟩
  · intro pre f post he hf hpost
    unfold Message.proxyField
    simp only [newMessage]
    rw [key0, he]
    have : post.reverse.find? (fun f => decide (f.name = name)) = none := by
      rw [List.find?_eq_none]; intro x hx; simpa using hpost x (by simpa using hx)
    simp [List.find?_append, this, hf]
  · unfold Message.proxyField
    simp only [newMessage]
    rw [key0]
    constructor
    · intro h g hg hn
      cases hf : fs.reverse.find? (fun f => decide (f.name = name)) with
      | none =>
        rw [List.find?_eq_none] at hf
        exact hf g (by simpa using hg) (by simpa using hn)
      | some x => rw [hf] at h; simp [Outcome.isErr] at h
    · intro h
      have : fs.reverse.find? (fun f => decide (f.name = name)) = none := by
        rw [List.find?_eq_none]; intro x hx; simpa using h x (by simpa using hx)
      rw [this]; rfl

example : ([newField (str "year") (.val (.uint 1)) 8, newField (str "day") (.val (.uint 3)) 8,
    newField (str "year") (.val (.uint 2)) 8].foldl Message.setProxyField
      (newMessage [] : Message ToyFloat)).proxyField (str "year")
      = .ok (newField (str "year") (.val (.uint 2)) 8) := by decide

/-! ## C75 -/

/-- C75. `Fields()` lists the fields in the order they were added. -/
theorem C75_order (number : Int) (desc : GoString) (fs : List (Field F)) :
    (fs.foldl Section.addField (newSection number desc)).fields = fs := by
  have key : ∀ (fs : List (Field F)) (s : Section F),
      (fs.foldl Section.addField s).fields = s.fields ++ fs := by
    intro fs
    induction fs with
    | nil => simp
    | cons f fs ih => intro s; simp [ih, Section.addField]
  simpa [newSection] using key fs (newSection number desc)

/-- C75. `FieldByName` gives the first field with that name, nil if there is none. -/
theorem C75_first (s : Section F) (name : GoString) :
    (∀ pre f post, s.fields = pre ++ f :: post → (∀ g ∈ pre, g.name ≠ name) → f.name = name →
      s.fieldByName name = some f) ∧
    (s.fieldByName name = none ↔ ∀ g ∈ s.fields, g.name ≠ name) := by
  have key : ∀ fs : List (Field F),
      fieldByNameLoop name fs = fs.find? (fun f => decide (f.name = name)) := by
    intro fs
    induction fs with
    | nil => rfl
    | cons f fs ih =>
      simp only [fieldByNameLoop, List.find?_cons, ih]
      by_cases h : f.name = name <;> simp [h]
  refine ⟨?_, ?_⟩
  · intro pre f post he hpre hf
    have : pre.find? (fun f => decide (f.name = name)) = none := by
      rw [List.find?_eq_none]; intro x hx; simpa using hpre x hx
    simp [Section.fieldByName, key, he, List.find?_append, this, hf]
  · simp [Section.fieldByName, key, List.find?_eq_none]

example : ([newField (str "a") (.val (.uint 1)) 8, newField (str "a") (.val (.uint 2)) 8].foldl
    Section.addField (newSection 1 [] : Section ToyFloat)).fieldByName (str "a")
      = some (newField (str "a") (.val (.uint 1)) 8) := by decide

/-! ## C76 -/

/-- The kinds of value that are numbers. -/
def Val.IsNumber : Val F → Prop
  | .uint _ | .int _ | .float _ => True
  | _ => False

/-- The kinds of value that are text. -/
def Val.IsText : Val F → Prop
  | .str _ | .bytes _ => True
  | _ => False

/-- C76. The conversions succeed exactly on compatible kinds and never crash; in particular none
succeeds on nil (missing). -/
theorem C76_success [GoFloat F] (c : Cell F) :
    (c.uintValue.isOk = true ↔ c.v.IsNumber) ∧ (c.intValue.isOk = true ↔ c.v.IsNumber) ∧
    (c.floatValue.isOk = true ↔ c.v.IsNumber) ∧ (c.stringValue.isOk = true ↔ c.v.IsText) ∧
    (c.uintValue.isErr = !c.uintValue.isOk) ∧ (c.intValue.isErr = !c.intValue.isOk) ∧
    (c.floatValue.isErr = !c.floatValue.isOk) ∧ (c.stringValue.isErr = !c.stringValue.isOk) := by
  rcases c with ⟨n, v⟩
  cases v <;> simp [Cell.uintValue, Cell.intValue, Cell.floatValue, Cell.stringValue, Outcome.isOk,
    Outcome.isErr, Val.IsNumber, Val.IsText]

/-- C76. A missing value converts to nothing. -/
theorem C76_missing [GoFloat F] (n : NodeId) :
    (Cell.mk n (.nil : Val F)).uintValue.isErr = true ∧ (Cell.mk n (.nil : Val F)).intValue.isErr = true ∧
    (Cell.mk n (.nil : Val F)).floatValue.isErr = true ∧
    (Cell.mk n (.nil : Val F)).stringValue.isErr = true := ⟨rfl, rfl, rfl, rfl⟩

/-- C76. On a non-negative integer below 2^63 the conversions agree, whichever integer kind
holds it. -/
theorem C76_agree [GoFloat F] (n : NodeId) (k : Nat) (h : k < 2 ^ 63) :
    (Cell.mk n (.uint k : Val F)).uintValue = .ok k ∧
    (Cell.mk n (.uint k : Val F)).intValue = .ok (k : Int) ∧
    (Cell.mk n (.int k : Val F)).uintValue = .ok k ∧
    (Cell.mk n (.int k : Val F)).intValue = .ok (k : Int) ∧
    (Cell.mk n (.uint k : Val F)).floatValue = .ok (GoFloat.ofNat k) ∧
    (Cell.mk n (.int k : Val F)).floatValue = .ok (GoFloat.ofInt k) := by
  refine ⟨rfl, ?_, ?_, rfl, rfl, rfl⟩
  · have : toInt64 (k : Int) = k := by
      unfold toInt64
      rw [Int.bmod_eq_iff (by decide)]
      exact ⟨by simp only [two64]; omega, by simp only [two64]; omega, by simp⟩
    simp [Cell.intValue, this]
  · have : toUint (k : Int) = k := toUint_of_lt (by simp only [two64]; omega)
    simp [Cell.uintValue, this]

/-- C76. The same for the integers a float can hold exactly. -/
theorem C76_agree_float [GoFloat F] [LawfulGoFloat F] (n : NodeId) (k : Nat) (h : k ≤ 2 ^ 53) :
    (Cell.mk n (.float (GoFloat.ofNat k) : Val F)).uintValue = .ok k ∧
    (Cell.mk n (.float (GoFloat.ofNat k) : Val F)).intValue = .ok (k : Int) := by
  simp [Cell.uintValue, Cell.intValue, LawfulGoFloat.roundUint_ofNat k h,
    LawfulGoFloat.roundInt_ofNat k h]

/-- Beyond that they do not: a uint of 2^63 is a negative int, and -1 is the largest uint. -/
theorem C76_wraps [GoFloat F] (n : NodeId) :
    (Cell.mk n (.uint (2 ^ 63) : Val F)).intValue = .ok (-(2 ^ 63)) ∧
    (Cell.mk n (.int (-1) : Val F)).uintValue = .ok (2 ^ 64 - 1) := by
  constructor <;> rfl

example : (Cell.mk 0 (.int 12 : Val ToyFloat)).uintValue = .ok 12 := by decide

end Gobufr
