import Verif.Proofs.Stringer
import Verif.Model.FloatInst

/-!
# Texts

C92: constants print as their names.  C93: the text of a descriptor, a template or a node tells what it is.
-/

namespace Gobufr
open Spec

/-! ## C92 -/

/-- **C92**, as it should be: every constant prints as its name, any other number as type and number. -/
def C92_statement : Prop :=
  Prints (str "Unit") unitConsts Stringer.unit ∧ Prints (str "DataType") dataTypeConsts Stringer.dataType ∧
  Prints (str "EventCode") eventConsts Stringer.eventCode ∧ Prints (str "Operator") operatorConsts Stringer.operator

/-- The code violates C92: units print as those of an older list (`CODE` is printed as `FLAG`), and the data type `BINARY` as `BIN`. -/
theorem C92_violates : Stringer.unit 3 = str "FLAG" ∧ (3, str "CODE") ∈ unitConsts ∧
    Stringer.dataType 5 = str "BIN" ∧ (5, str "BINARY") ∈ dataTypeConsts ∧ ¬ C92_statement := by
  refine ⟨by decide +kernel, by decide +kernel, by decide +kernel, by decide +kernel, fun h => ?_⟩
  have h1 := h.1.1 (3, str "CODE") (by decide +kernel)
  exact absurd h1 (by decide +kernel)

/-- **C92**, the part that holds: events and operators print as their names; units and data types as in the lists the code was generated from,
the same in the first two units and the first five data types.  (Missing: the other four units and the data type `BINARY`.) -/
theorem C92_partial :
    Prints (str "EventCode") eventConsts Stringer.eventCode ∧ Prints (str "Operator") operatorConsts Stringer.operator ∧
    Prints (str "Unit") (unitConsts.take 2 ++ [(2, str "CODE"), (3, str "FLAG"), (4, str "COMMON_CODE"), (5, str "BIN")]) Stringer.unit ∧
    Prints (str "DataType") (dataTypeConsts.take 5 ++ [(5, str "BIN")]) Stringer.dataType := by
  refine ⟨Stringer.prints_stringer (by decide) (by decide +kernel), Stringer.prints_operator, ?_, ?_⟩
  · exact Stringer.prints_stringer (names := ["NUMERIC", "STRING", "CODE", "FLAG", "COMMON_CODE", "BIN"]) (by decide) (by decide +kernel)
  · exact Stringer.prints_stringer (names := ["INT", "UINT", "FLOAT", "BOOL", "BYTES", "BIN"]) (by decide) (by decide +kernel)

/-- C92. Different numbers have different texts. -/
theorem C92_distinct (i j : Int) :
    (Stringer.unit i = Stringer.unit j → i = j) ∧ (Stringer.dataType i = Stringer.dataType j → i = j) ∧
    (Stringer.eventCode i = Stringer.eventCode j → i = j) ∧ (Stringer.operator i = Stringer.operator j → i = j) := by
  obtain ⟨h1, h2, h3, h4⟩ := C92_partial
  exact ⟨Stringer.prints_inj h3 (by decide +kernel) (by decide +kernel) i j, Stringer.prints_inj h4 (by decide +kernel) (by decide +kernel) i j,
    Stringer.prints_inj h1 (by decide +kernel) (by decide +kernel) i j, Stringer.prints_inj h2 (by decide +kernel) (by decide +kernel) i j⟩

/-- C92: some texts. -/
example : Stringer.eventCode 4 = str "WE_FACTOR" ∧ Stringer.operator 236 = str "OP_DEFINE_BITMAP" ∧
    Stringer.operator 209 = str "Operator(209)" ∧ Stringer.unit (-1) = str "Unit(-1)" := by decide +kernel

/-! ## C93 -/

/-- **C93**. An id of the tables prints as six digits: F, X and Y. -/
theorem C93_id (f x y : Nat) (hf : f < 10) (hx : x < 100) (hy : y < 1000) :
    Stringer.id ((f * 100000 + x * 1000 + y : Nat) : Int) =
      [digit f, digit (x / 10), digit (x % 10), digit (y / 100), digit (y / 10 % 10), digit (y % 10)] := by
  rw [Stringer.id_nat, Stringer.padded 5 _ (by omega)]
  simp only [Stringer.digitsOf, List.nil_append, List.cons_append]
  generalize hn : f * 100000 + x * 1000 + y = n
  have h1 : n % 10 = y % 10 := by omega
  have h2 : n / 10 % 10 = y / 10 % 10 := by omega
  have h3 : n / 10 / 10 % 10 = y / 100 := by omega
  have h4 : n / 10 / 10 / 10 % 10 = x % 10 := by omega
  have h5 : n / 10 / 10 / 10 / 10 % 10 = x / 10 := by omega
  have h6 : n / 10 / 10 / 10 / 10 / 10 % 10 = f := by omega
  rw [h1, h2, h3, h4, h5, h6]

/-- C93. The text of a descriptor determines its id and its name. -/
theorem C93_descriptor (d e : Desc) (h : d.toStr = e.toStr) : d.id = e.id ∧ d.entry.name = e.entry.name := by
  have h : Stringer.id d.id ++ ch ' ' :: d.entry.name = Stringer.id e.id ++ ch ' ' :: e.entry.name := by
    simpa [Desc.toStr, Stringer.id] using h
  obtain ⟨h1, h2⟩ := cut_unique (Stringer.id_no (by decide) (by decide)) (Stringer.id_no (by decide) (by decide)) h
  exact ⟨Stringer.id_inj h1, h2⟩

/-- C93. The text of a template determines its descriptors. -/
theorem C93_template (l l' : List ID) (h : Stringer.template l = Stringer.template l') : l = l' := by
  have hs : ∀ l : List ID, ∀ s ∈ l.map Stringer.id, s ≠ [] ∧ ch ' ' ∉ s := by
    intro l s hs
    obtain ⟨i, -, rfl⟩ := List.mem_map.1 hs
    refine ⟨fun h0 => ?_, Stringer.id_no (by decide) (by decide)⟩
    have := Stringer.id_length i
    rw [h0] at this
    simp at this
  unfold Stringer.template at h
  have h := List.append_cancel_left (List.append_cancel_right h |> fun h => by simpa using h : [ch '['] ++ _ = [ch '['] ++ _)
  exact Stringer.map_id_inj (Stringer.spaced_inj (hs l) (hs l') h)

/-- C93. The text of a node determines its index, the text of its descriptor and its width. -/
theorem C93_node (i j : Int) (d e : NodeDesc) (m n : Int) (h : Stringer.valued i d m = Stringer.valued j e n) :
    i = j ∧ Stringer.nodeDesc d = Stringer.nodeDesc e ∧ m = n := by
  unfold Stringer.valued at h
  have h : itoa i ++ ch ']' :: (ch ' ' :: (Stringer.nodeDesc d ++ str " (" ++ itoa m ++ str ")"))
      = itoa j ++ ch ']' :: (ch ' ' :: (Stringer.nodeDesc e ++ str " (" ++ itoa n ++ str ")")) := by
    simpa [str] using h
  obtain ⟨h1, h2⟩ := cut_unique (Stringer.itoa_no (by decide) (by decide)) (Stringer.itoa_no (by decide) (by decide)) h
  have h2 := (List.cons.inj h2).2
  have h2 := List.append_cancel_right h2
  have h3 : (itoa m).reverse ++ ch '(' :: (ch ' ' :: (Stringer.nodeDesc d).reverse) =
      (itoa n).reverse ++ ch '(' :: (ch ' ' :: (Stringer.nodeDesc e).reverse) := by
    have := congrArg List.reverse h2
    simpa [str] using this
  have hno : ∀ k, ch '(' ∉ (itoa k).reverse := fun k hk => Stringer.itoa_no (by decide) (by decide) (List.mem_reverse.1 hk)
  obtain ⟨h4, h5⟩ := cut_unique (hno m) (hno n) h3
  exact ⟨itoa_inj h1, List.reverse_inj.1 (List.cons.inj h5).2, itoa_inj (List.reverse_inj.1 h4)⟩

theorem id_cons (i : ID) (h : SixDigits i) : ∃ f : Nat, f < 10 ∧ i.F = f ∧ Stringer.id i = digit f :: (Stringer.id i).drop 1 := by
  obtain ⟨n, rfl⟩ := Int.eq_ofNat_of_zero_le h.1
  have hn : n < 1000000 := Int.ofNat_lt.1 h.2
  have e : n / 100000 * 100000 + n / 1000 % 100 * 1000 + n % 1000 = n := by omega
  have h1 := C93_id (n / 100000) (n / 1000 % 100) (n % 1000) (by omega) (by omega) (by omega)
  rw [e] at h1
  exact ⟨n / 100000, by omega, rfl, by rw [h1]; rfl⟩

/-- C93. Associated fields print differently from the elements they belong to, and for elements the text tells which. -/
theorem C93_associated (d e : Desc) (hd : SixDigits d.id) (he : SixDigits e.id) (hf : d.id.F = e.id.F) (a b : Bool)
    (h : Stringer.nodeDesc ⟨some d, a⟩ = Stringer.nodeDesc ⟨some e, b⟩) : a = b ∧ d.id = e.id ∧ (a = false → d.entry.name = e.entry.name) := by
  have hA : ∀ {f : Nat}, f < 10 → digit f ≠ ch 'A' := by
    intro f hf e
    have := congrArg UInt8.toNat e
    rw [show digit f = UInt8.ofNat (48 + f) from rfl, digit_toNat hf, show (ch 'A').toNat = 65 by decide] at this
    omega
  obtain ⟨f, h1, h2, h3⟩ := id_cons d.id hd
  obtain ⟨g, k1, k2, k3⟩ := id_cons e.id he
  have hs : ∀ i : ID, ch ' ' ∉ Stringer.id i := fun i => Stringer.id_no (by decide) (by decide)
  have hc : ∀ i : ID, ch ' ' ∉ (Stringer.id i).drop 1 := fun i hm => hs i (List.mem_of_mem_drop hm)
  have text : ∀ d : Desc, d.toStr = Stringer.id d.id ++ ch ' ' :: d.entry.name := fun d => by simp [Desc.toStr, Stringer.id]
  cases a <;> cases b
  · obtain ⟨e1, e2⟩ := C93_descriptor d e h
    exact ⟨rfl, e1, fun _ => e2⟩
  · have h : d.toStr = Stringer.decorated (ch 'A') e.id (str "ASSOCIATED FIELD") := h
    rw [text, h3] at h
    exact absurd (List.cons.inj h).1 (hA h1)
  · have h : Stringer.decorated (ch 'A') d.id (str "ASSOCIATED FIELD") = e.toStr := h
    rw [text, k3] at h
    exact absurd (List.cons.inj h).1.symm (hA k1)
  · have h : (Stringer.id d.id).drop 1 ++ ch ' ' :: str "ASSOCIATED FIELD" = (Stringer.id e.id).drop 1 ++ ch ' ' :: str "ASSOCIATED FIELD" := by
      simpa [Stringer.nodeDesc, Stringer.decorated] using h
    obtain ⟨e1, -⟩ := cut_unique (hc _) (hc _) h
    refine ⟨rfl, Stringer.id_inj ?_, fun h => absurd h (by simp)⟩
    rw [h3, k3, e1]
    have : f = g := by
      rw [h2, k2] at hf
      exact Int.ofNat.inj hf
    rw [this]

/-- C93. In the listing of cells with nodes in ASCII of at most 81 characters, all values start in column 83. -/
theorem C93_column (node value : GoString) (ha : ∀ c ∈ node, c.toNat < 128) (hl : node.length ≤ 81) :
    ∃ lead, lead.length = 82 ∧ node <+: lead ∧ Stringer.cell node value = lead ++ value := by
  refine ⟨node ++ List.replicate (81 - node.length) (ch ' ') ++ [ch ' '], ?_, ?_, ?_⟩
  · simp only [List.length_append, List.length_replicate, List.length_singleton]
    omega
  · exact ⟨_, (List.append_assoc ..).symm⟩
  · unfold Stringer.cell
    rw [Stringer.runes_ascii node ha]

/-- C93: the texts of a descriptor, an associated field, a node and a template. -/
example : Stringer.nodeDesc ⟨some ⟨1001, .r (str "X")⟩, false⟩ = str "001001 X" ∧
    Stringer.nodeDesc ⟨some ⟨1001, .r (str "X")⟩, true⟩ = str "A01001 ASSOCIATED FIELD" ∧
    Stringer.valued 3 ⟨some ⟨1001, .r (str "X")⟩, false⟩ 7 = str "[3] 001001 X (7)" ∧
    Stringer.template [1001, 301011] = str "[001001 301011]" := by decide +kernel

/-- C93: the hypotheses of `C93_associated` and `C93_column` are met. -/
example : SixDigits 1001 ∧ SixDigits 31021 ∧ ID.F 1001 = ID.F 31021 ∧
    (∀ c ∈ str "[3] 001001 X (7)", c.toNat < 128) ∧ (str "[3] 001001 X (7)").length ≤ 81 :=
  ⟨⟨by decide, by decide⟩, ⟨by decide, by decide⟩, by decide, by decide, by decide⟩

end Gobufr
