import Verif.Spec.Json
import Verif.Model.FloatInst
import Verif.Props.BitIO

/-!
# Properties of the flat JSON readers (C14 - C17)
-/

namespace Gobufr

set_option linter.unusedSectionVars false

variable {F : Type} [GoFloat F]

/-! ## Helper lemmas -/

theorem tokenLoop_scalars (e : Err) (ts : List (Tok F)) :
    (scalars ts = [] → FlatJson.tokenLoop e ts = (.err (.wrap "cannot get token" e), [])) ∧
    (∀ s ss, scalars ts = s :: ss →
      ∃ ts', FlatJson.tokenLoop e ts = (.ok s, ts') ∧ scalars ts' = ss) := by
  induction ts with
  | nil => simp [scalars, FlatJson.tokenLoop]
  | cons t ts ih =>
    cases t with
    | delim => simpa [scalars, FlatJson.tokenLoop] using ih
    | _ => simp [scalars, FlatJson.tokenLoop]

/-- The conversion functions of the reader agree with the specification. -/
def JOp.conv : JOp → Tok F → Outcome (JVal F)
  | .number, t => do let v ← FlatJson.toFloat t; pure (.float v)
  | .float32, t => do let v ← FlatJson.toFloat t; pure (.float v)
  | .uint, t => do let v ← FlatJson.toUint t; pure (.uint v)
  | .int, t => do let v ← FlatJson.toInt t; pure (.int v)
  | .bool, t => do let v ← FlatJson.toBool t; pure (.bool v)
  | .bytes, t => do let v ← FlatJson.toBytes t; pure (.bytes v)
  | .binary, t => do let v ← FlatJson.toBinary t; pure (.binary v)

theorem newBinaryFromString_total (s : GoString) :
    (∃ b, newBinaryFromString s = .ok b) ∨ ∃ e, newBinaryFromString s = .err e := by
  have hp : ∀ s u, (∃ b, parseBin8 s u = .ok b) ∨ ∃ e, parseBin8 s u = .err e := by
    intro s
    induction s with
    | nil => intro u; exact .inl ⟨_, rfl⟩
    | cons c cs ih =>
      intro u
      simp only [parseBin8]
      split
      · exact ih _
      · split
        · exact ih _
        · exact .inr ⟨_, rfl⟩
  have hl : ∀ s acc, (∃ b, newBinaryFromStringLoop s acc = .ok b) ∨
      ∃ e, newBinaryFromStringLoop s acc = .err e := by
    intro s acc
    fun_induction newBinaryFromStringLoop s acc with
    | case1 c1 c2 c3 c4 c5 c6 c7 c8 rest acc ih =>
      rcases hp [c1, c2, c3, c4, c5, c6, c7, c8] 0 with ⟨b, hb⟩ | ⟨e, he⟩
      · rw [hb]; exact ih b
      · rw [he]; exact .inr ⟨e, rfl⟩
    | case2 acc => exact .inl ⟨_, rfl⟩
    | case3 c cs acc _ =>
      rcases hp (c :: cs) 0 with ⟨b, hb⟩ | ⟨e, he⟩
      · rw [hb]; exact .inl ⟨_, rfl⟩
      · rw [he]; exact .inr ⟨e, rfl⟩
  unfold newBinaryFromString
  rcases hl s [] with ⟨b, hb⟩ | ⟨e, he⟩
  · rw [hb]
    have hn : ∀ (b : List UInt8) (n : Int),
        (∃ x, newBinary b n = .ok x) ∨ ∃ e, newBinary b n = .err e := by
      intro b n
      unfold newBinary
      simp only []
      split <;> split <;> first | exact .inl ⟨_, rfl⟩ | exact .inr ⟨_, rfl⟩
    exact hn _ _
  · rw [he]; exact .inr ⟨e, rfl⟩

theorem conv_spec (op : JOp) (t : Tok F) :
    (∀ v, op.value t = some v → op.conv t = .ok v) ∧
    (op.value t = none → ∃ e, op.conv t = .err e) := by
  cases op <;> cases t <;>
    simp [JOp.value, JOp.conv, FlatJson.toFloat, FlatJson.toUint, FlatJson.toInt,
      FlatJson.toBool, FlatJson.toBytes, FlatJson.toStr, FlatJson.toBinary, bind,
      Outcome.bind, pure]
  rename_i s
  by_cases h : ∀ x ∈ s, x = ch '0' ∨ x = ch '1'
  · obtain ⟨b, hb⟩ := (C11_text_roundtrip s).1.mpr h
    rw [hb]
    simp
    exact fun x hx => Decidable.or_iff_not_imp_left.mp (h x hx)
  · have hn : ∀ b, newBinaryFromString s ≠ .ok b := fun b hb =>
      h ((C11_text_roundtrip s).1.mp ⟨b, hb⟩)
    rcases newBinaryFromString_total s with ⟨b, hb⟩ | ⟨e, he⟩
    · exact absurd hb (hn b)
    · rw [he]; simp [h]

/-- The nominal width by which `Pos` advances. -/
def JOp.width (n : Int) : JOp → Int
  | .bool => 1
  | .bytes => n * 8
  | .float32 => 32
  | _ => n

theorem lift_map (w : Int) (conv : Tok F → Outcome α) (f : α → β) :
    (do let v ← FlatJson.readWith w conv; pure (f v) : M (FlatJson F) β)
      = FlatJson.readWith w (fun t => do let v ← conv t; pure (f v)) := by
  funext r
  simp only [FlatJson.readWith, M.bind_apply]
  rcases FlatJson.token r with ⟨o, r'⟩
  cases o <;> simp
  rename_i t
  cases conv t <;> simp

theorem lift_map_peek (w : Int) (conv : Tok F → Outcome α) (f : α → β) :
    (do let v ← PeekJson.readWith w conv; pure (f v) : M (PeekJson F) β)
      = PeekJson.readWith w (fun t => do let v ← conv t; pure (f v)) := by
  funext r
  simp only [PeekJson.readWith, ← lift_map, M.bind_apply]
  rcases PeekJson.shift r with ⟨o, r'⟩
  cases o <;> simp
  rename_i o
  cases o with
  | none =>
    simp only [PeekJson.onBase, M.bind_apply]
    rcases FlatJson.readWith w conv r'.base with ⟨o, b⟩
    cases o <;> simp
  | some t =>
    simp only [M.bind_apply, M.modify_apply, M.lift_apply]
    cases conv t <;> simp

theorem runFlat_eq (op : JOp) (n : Int) :
    (op.runFlat n : M (FlatJson F) (JVal F)) = FlatJson.readWith (op.width n) op.conv := by
  cases op <;> exact lift_map _ _ _

theorem runPeek_eq (op : JOp) (n : Int) (h : op ≠ .float32) :
    (op.runPeek n : M (PeekJson F) (JVal F)) = PeekJson.readWith (op.width n) op.conv := by
  cases op <;> first | exact lift_map_peek _ _ _ | exact absurd rfl h

/-- One read of a FlatJsonReader: nothing left. -/
theorem flat_read_nil (w : Int) (conv : Tok F → Outcome α) (r : FlatJson F)
    (h : scalars r.toks = []) :
    ∃ r', FlatJson.readWith w conv r = (.err (.wrap "cannot get token" r.endErr), r') ∧
      scalars r'.toks = [] := by
  have := (tokenLoop_scalars r.endErr r.toks).1 h
  refine ⟨{ r with toks := [] }, ?_, rfl⟩
  simp [FlatJson.readWith, M.bind_apply, FlatJson.token, this]

/-- One read of a FlatJsonReader: it uses the first pending scalar. -/
theorem flat_read_cons (w : Int) (conv : Tok F → Outcome α) (r : FlatJson F) (s : Tok F)
    (ss : List (Tok F)) (h : scalars r.toks = s :: ss) :
    ∃ r', FlatJson.readWith w conv r = (conv s, r') ∧ scalars r'.toks = ss ∧
      r'.pos = r.pos + w ∧ r'.endErr = r.endErr := by
  obtain ⟨ts', h1, h2⟩ := (tokenLoop_scalars r.endErr r.toks).2 s ss h
  refine ⟨{ r with toks := ts', pos := r.pos + w }, ?_, h2, rfl, rfl⟩
  simp [FlatJson.readWith, M.bind_apply, FlatJson.token, h1]

/-! ## C14 -/

/-- C14. Whatever the bracketing, the k-th request to a FlatJsonReader uses the k-th scalar of
the document (also after requests that failed because of a wrong kind). -/
theorem C14_flat_reads (ops : List (JOp × Int)) (r : FlatJson F) :
    runEachFlat ops r = specEach (ops.map Prod.fst) (scalars r.toks) := by
  induction ops generalizing r with
  | nil => rfl
  | cons o ops ih =>
    obtain ⟨op, n⟩ := o
    simp only [runEachFlat, List.map_cons]
    rw [runFlat_eq]
    cases hs : scalars r.toks with
    | nil =>
      obtain ⟨r', h1, h2⟩ := flat_read_nil (op.width n) op.conv r hs
      rw [h1]
      simp only [specEach]
      rw [ih r', h2]
    | cons s ss =>
      obtain ⟨r', h1, h2, _⟩ := flat_read_cons (op.width n) op.conv r s ss hs
      rw [h1]
      simp only [specEach]
      cases hv : op.value s with
      | none =>
        obtain ⟨e, he⟩ := (conv_spec op s).2 hv
        rw [he]
        simp only
        rw [ih r', h2]
      | some v =>
        rw [(conv_spec op s).1 v hv]
        simp only
        rw [ih r', h2]

/-- C14, consequence: two documents with the same scalars are indistinguishable. -/
theorem C14_nesting_irrelevant (ops : List (JOp × Int)) (r1 r2 : FlatJson F)
    (h : scalars r1.toks = scalars r2.toks) : runEachFlat ops r1 = runEachFlat ops r2 := by
  rw [C14_flat_reads, C14_flat_reads, h]

/-- Non-vacuity: `[[1, "ab"], true]` read as uint, bytes, bool. -/
example : runEachFlat [(.uint, 8), (.bytes, 2), (.bool, 0), (.uint, 1)]
    (FlatJson.new [.delim, .delim, .num (⟨1⟩ : ToyFloat), .str (str "ab"), .delim, .bool true, .delim])
    = [some (.uint 1), some (.bytes (str "ab")), some (.bool true), none] := by decide

/-! ## C16 -/

/-- C16. A read succeeds iff the scalar it consumes has the kind asked for, and then returns
that scalar's value; otherwise it returns an error (never a panic, never another value). -/
theorem C16_typed_reads (op : JOp) (n : Int) (r : FlatJson F) (s : Tok F) (ss : List (Tok F))
    (h : scalars r.toks = s :: ss) :
    (∀ v, op.value s = some v → (op.runFlat n r).1 = .ok v) ∧
    (op.value s = none → (op.runFlat n r).1.isErr = true) := by
  rw [runFlat_eq]
  obtain ⟨r', h1, _⟩ := flat_read_cons (op.width n) op.conv r s ss h
  rw [h1]
  refine ⟨fun v hv => (conv_spec op s).1 v hv, fun hv => ?_⟩
  obtain ⟨e, he⟩ := (conv_spec op s).2 hv
  simp [he, Outcome.isErr]

/-- C16, end of the document: an error. -/
theorem C16_end (op : JOp) (n : Int) (r : FlatJson F) (h : scalars r.toks = []) :
    (op.runFlat n r).1.isErr = true := by
  rw [runFlat_eq]
  obtain ⟨r', h1, _⟩ := flat_read_nil (op.width n) op.conv r h
  rw [h1]; rfl

example : scalars (FlatJson.new [.delim, Tok.str (F := ToyFloat) (str "x")]).toks = [.str (str "x")] := rfl

/-! ## C15 -/

/-- Scalars not yet read, whether cached or still in the document. -/
def PeekJson.pending (r : PeekJson F) : List (Tok F) := r.cache ++ scalars r.base.toks

theorem onBase_token_cons (r : PeekJson F) (s : Tok F) (ss : List (Tok F))
    (h : scalars r.base.toks = s :: ss) :
    ∃ b', PeekJson.onBase FlatJson.token r = (.ok s, ⟨b', r.cache⟩) ∧ scalars b'.toks = ss := by
  obtain ⟨ts', h1, h2⟩ := (tokenLoop_scalars r.base.endErr r.base.toks).2 s ss h
  exact ⟨{ r.base with toks := ts' }, by simp [PeekJson.onBase, FlatJson.token, h1], h2⟩

theorem onBase_token_nil (r : PeekJson F) (h : scalars r.base.toks = []) :
    ∃ b' e, PeekJson.onBase FlatJson.token r = (.err e, ⟨b', r.cache⟩) ∧ scalars b'.toks = [] := by
  have h1 := (tokenLoop_scalars r.base.endErr r.base.toks).1 h
  exact ⟨{ r.base with toks := [] }, _, by simp [PeekJson.onBase, FlatJson.token, h1]; rfl, rfl⟩

theorem fill_ok (k : Nat) (r : PeekJson F) (h : k ≤ (scalars r.base.toks).length) :
    ∃ r', PeekJson.fill k r = (.ok (), r') ∧
      r'.cache = r.cache ++ (scalars r.base.toks).take k ∧
      scalars r'.base.toks = (scalars r.base.toks).drop k := by
  induction k generalizing r with
  | zero => exact ⟨r, rfl, by simp, by simp⟩
  | succ k ih =>
    cases hs : scalars r.base.toks with
    | nil => rw [hs] at h; simp at h
    | cons s ss =>
      obtain ⟨b', h1, h2⟩ := onBase_token_cons r s ss hs
      obtain ⟨r', i1, i2, i3⟩ := ih ⟨b', r.cache ++ [s]⟩ (by rw [hs] at h; simp at h; simpa [h2] using h)
      refine ⟨r', ?_, ?_, ?_⟩
      · simp only [PeekJson.fill]
        rw [M.bind_ok (m := M.wrapErr _ _) (a := s) (s' := ⟨b', r.cache⟩)
          (by simp [M.wrapErr, h1])]
        exact i1
      · rw [i2]; simp [h2]
      · rw [i3]; simp [h2]

theorem fill_short (k : Nat) (r : PeekJson F) (h : (scalars r.base.toks).length < k) :
    ∃ r' e, PeekJson.fill k r = (.err e, r') ∧
      r'.cache = r.cache ++ scalars r.base.toks ∧ scalars r'.base.toks = [] := by
  induction k generalizing r with
  | zero => omega
  | succ k ih =>
    cases hs : scalars r.base.toks with
    | nil =>
      obtain ⟨b', e, h1, h2⟩ := onBase_token_nil r hs
      refine ⟨⟨b', r.cache⟩, .wrap "cannot peek token" e, ?_, by simp, h2⟩
      simp only [PeekJson.fill]
      rw [M.bind_err (m := M.wrapErr _ _) (by simp only [M.wrapErr, h1]; rfl)]
    | cons s ss =>
      obtain ⟨b', h1, h2⟩ := onBase_token_cons r s ss hs
      obtain ⟨r', e, i1, i2, i3⟩ := ih ⟨b', r.cache ++ [s]⟩ (by rw [hs] at h; simp at h; simpa [h2] using h)
      refine ⟨r', e, ?_, ?_, i3⟩
      · simp only [PeekJson.fill]
        rw [M.bind_ok (m := M.wrapErr _ _) (a := s) (s' := ⟨b', r.cache⟩)
          (by simp [M.wrapErr, h1])]
        exact i1
      · rw [i2]; simp [h2]

/-- Complete description of `peek(skip)` for `skip ≥ 0`: the pending scalars are unchanged; on
success the result is the last cached scalar. -/
theorem peek_spec (skip : Nat) (r : PeekJson F) :
    (skip < r.pending.length →
      ∃ r' t, PeekJson.peek skip r = (.ok t, r') ∧ r'.pending = r.pending ∧
        r'.cache.length = max r.cache.length (skip + 1) ∧
        r.pending[max r.cache.length (skip + 1) - 1]? = some t) ∧
    (r.pending.length ≤ skip →
      ∃ r' e, PeekJson.peek skip r = (.err e, r') ∧ r'.pending = r.pending ∧
        r'.cache.length = r.pending.length) := by
  have hk : ((skip : Int) - (r.cache.length : Int) + 1).toNat = skip + 1 - r.cache.length := by omega
  constructor
  · intro h
    have hlen : r.pending.length = r.cache.length + (scalars r.base.toks).length := by
      simp [PeekJson.pending]
    obtain ⟨r', h1, h2, h3⟩ := fill_ok (skip + 1 - r.cache.length) r (by omega)
    have hp : r'.pending = r.pending := by
      simp only [PeekJson.pending, h2, h3, List.append_assoc, List.take_append_drop]
    have hcl : r'.cache.length = max r.cache.length (skip + 1) := by
      rw [h2]; simp; omega
    have hne : r'.cache ≠ [] := by
      intro he; rw [he] at hcl; simp at hcl; omega
    obtain ⟨t, ht⟩ : ∃ t, r'.cache.getLast? = some t := by
      rw [List.getLast?_eq_some_getLast hne]; exact ⟨_, rfl⟩
    refine ⟨r', t, ?_, hp, hcl, ?_⟩
    · unfold PeekJson.peek
      rw [M.bind_ok (M.get_apply r), hk, M.bind_ok h1, M.bind_ok (M.get_apply r'), ht]
      rfl
    · rw [← hp, ← hcl]
      unfold PeekJson.pending
      rw [List.getLast?_eq_getElem?] at ht
      rw [List.getElem?_append_left, ht]
      have := List.length_pos_iff.mpr hne
      omega
  · intro h
    have hlen : r.pending.length = r.cache.length + (scalars r.base.toks).length := by
      simp [PeekJson.pending]
    obtain ⟨r', e, h1, h2, h3⟩ := fill_short (skip + 1 - r.cache.length) r (by omega)
    refine ⟨r', e, ?_, ?_, ?_⟩
    · unfold PeekJson.peek
      rw [M.bind_ok (M.get_apply r), hk, M.bind_err h1]
    · simp only [PeekJson.pending, h2, h3, List.append_nil]
    · rw [h2, hlen]; simp

/-- One read of a peekable reader on a document without nulls: the first pending scalar. -/
theorem peekable_read (w : Int) (conv : Tok F → Outcome α) (r : PeekJson F)
    (hn : ∀ t ∈ r.pending, t ≠ .null) :
    (r.pending = [] → ∃ e r', PeekJson.readWith w conv r = (.err e, r') ∧ r'.pending = [] ∧
        r'.cache.length = r.cache.length - 1) ∧
    (∀ s ss, r.pending = s :: ss →
      ∃ r', PeekJson.readWith w conv r = (conv s, r') ∧ r'.pending = ss ∧
        r'.cache.length = r.cache.length - 1) := by
  obtain ⟨b, c⟩ := r
  cases c with
  | nil =>
    have hsh : PeekJson.shift (⟨b, []⟩ : PeekJson F) = (.ok none, ⟨b, []⟩) := rfl
    constructor
    · intro h
      obtain ⟨b', h1, h2⟩ := flat_read_nil w conv b (by simpa [PeekJson.pending] using h)
      refine ⟨.wrap "cannot get token" b.endErr, ⟨b', []⟩, ?_, by simpa [PeekJson.pending] using h2, rfl⟩
      unfold PeekJson.readWith
      rw [M.bind_ok hsh]
      simp only [PeekJson.onBase, h1]
    · intro s ss h
      obtain ⟨b', h1, h2, _⟩ := flat_read_cons w conv b s ss (by simpa [PeekJson.pending] using h)
      refine ⟨⟨b', []⟩, ?_, by simpa [PeekJson.pending] using h2, rfl⟩
      unfold PeekJson.readWith
      rw [M.bind_ok hsh]
      simp only [PeekJson.onBase, h1]
  | cons t ts =>
    have hnt : t ≠ .null := hn t (by simp [PeekJson.pending])
    have hsh : PeekJson.shift (⟨b, t :: ts⟩ : PeekJson F) = (.ok (some t), ⟨b, ts⟩) := by
      cases t <;> first | rfl | exact absurd rfl hnt
    constructor
    · intro h; simp [PeekJson.pending] at h
    · intro s ss h
      simp only [PeekJson.pending, List.cons_append, List.cons.injEq] at h
      obtain ⟨rfl, rfl⟩ := h
      refine ⟨⟨{ b with pos := b.pos + w }, ts⟩, ?_, rfl, by simp⟩
      unfold PeekJson.readWith
      rw [M.bind_ok hsh]
      simp only [M.bind_apply, M.modify_apply, M.lift_apply]

/-- A read event on a document without nulls. -/
theorem readEvent_spec (op : JOp) (n : Int) (hf : op ≠ .float32) (r : PeekJson F)
    (hn : ∀ t ∈ r.pending, t ≠ .null) :
    ((JEvent.read op n).run r).1 = r.pending.head?.bind op.value ∧
    ((JEvent.read op n).run r).2.pending = r.pending.tail ∧
    ((JEvent.read op n).run r).2.cache.length = r.cache.length - 1 := by
  simp only [JEvent.run]
  rw [runPeek_eq op n hf]
  cases hp : r.pending with
  | nil =>
    obtain ⟨e, r', h1, h2, h3⟩ := (peekable_read (op.width n) op.conv r hn).1 hp
    rw [h1]; exact ⟨rfl, h2, h3⟩
  | cons s ss =>
    obtain ⟨r', h1, h2, h3⟩ := (peekable_read (op.width n) op.conv r hn).2 s ss hp
    rw [h1]
    cases hv : op.value s with
    | none =>
      obtain ⟨e, he⟩ := (conv_spec op s).2 hv
      rw [he]; exact ⟨by simp [hv], h2, h3⟩
    | some v =>
      rw [(conv_spec op s).1 v hv]; exact ⟨by simp [hv], h2, h3⟩

/-- A peek event never changes the pending scalars; its effect on the cache. -/
theorem peekEvent_state (skip : Nat) (n : Int) (r : PeekJson F) :
    ((JEvent.peekUint skip n).run r).2.pending = r.pending ∧
    ((JEvent.peekBytes skip n).run r).2.pending = r.pending ∧
    ((JEvent.peekUint skip n).run r).2.cache.length
      = min (max r.cache.length (skip + 1)) r.pending.length ∧
    ((JEvent.peekBytes skip n).run r).2.cache.length
      = min (max r.cache.length (skip + 1)) r.pending.length := by
  have hlen : r.cache.length ≤ r.pending.length := by simp [PeekJson.pending]
  simp only [JEvent.run, PeekJson.peekUint, PeekJson.peekBytes, M.bind_apply]
  by_cases h : skip < r.pending.length
  · obtain ⟨r', t, h1, h2, h3, _⟩ := (peek_spec skip r).1 h
    rw [h1]
    simp only [M.lift_apply]
    have hm : r'.cache.length = min (max r.cache.length (skip + 1)) r.pending.length := by omega
    refine ⟨?_, ?_, ?_, ?_⟩
    · cases FlatJson.toUint t <;> exact h2
    · cases FlatJson.toBytes t <;> exact h2
    · cases FlatJson.toUint t <;> exact hm
    · cases FlatJson.toBytes t <;> exact hm
  · obtain ⟨r', e, h1, h2, h3⟩ := (peek_spec skip r).2 (by omega)
    rw [h1]
    have hm : r'.cache.length = min (max r.cache.length (skip + 1)) r.pending.length := by omega
    exact ⟨h2, h2, hm, hm⟩

/-- The outcome of a peek event that does not look back. -/
theorem peekEvent_value (skip : Nat) (n : Int) (r : PeekJson F)
    (hf : r.cache.length ≤ skip + 1) :
    ((JEvent.peekUint skip n).run r).1 = r.pending[skip]?.bind JOp.uint.value ∧
    ((JEvent.peekBytes skip n).run r).1 = r.pending[skip]?.bind JOp.bytes.value := by
  simp only [JEvent.run, PeekJson.peekUint, PeekJson.peekBytes, M.bind_apply]
  by_cases h : skip < r.pending.length
  · obtain ⟨r', t, h1, h2, h3, h4⟩ := (peek_spec skip r).1 h
    rw [h1]
    rw [Nat.max_eq_right hf, Nat.add_sub_cancel] at h4
    simp only [M.lift_apply, h4]
    constructor
    · cases t <;> rfl
    · cases t <;> rfl
  · obtain ⟨r', e, h1, h2, h3⟩ := (peek_spec skip r).2 (by omega)
    rw [h1, List.getElem?_eq_none (by omega)]
    exact ⟨rfl, rfl⟩

/-- C15 (part 1): in any history of peeks and reads (other than ReadFloat32) on a document
without nulls, peeks change no later read: the reads yield exactly what they would yield
without any peek. Missing: nulls (`C15_null_dropped`) and ReadFloat32 (C17). -/
theorem C15_peeks_harmless_partial (es : List JEvent) (r : PeekJson F)
    (hn : ∀ t ∈ r.pending, t ≠ .null) (hf : ∀ op n, JEvent.read op n ∈ es → op ≠ .float32) :
    runReads es r = specReads es r.pending := by
  induction es generalizing r with
  | nil => rfl
  | cons e es ih =>
    cases e with
    | read op n =>
      obtain ⟨h1, h2, _⟩ := readEvent_spec op n (hf op n (by simp)) r hn
      simp only [runReads, specReads, List.filterMap_cons]
      have := ih ((JEvent.read op n).run r).2
        (fun t ht => hn t (by rw [h2] at ht; exact List.mem_of_mem_tail ht))
        (fun op n hm => hf op n (by simp [hm]))
      rw [this, h1, h2]
      cases hp : r.pending with
      | nil => rfl
      | cons s ss => rfl
    | peekUint skip n =>
      have h2 := (peekEvent_state skip n r).1
      simp only [runReads]
      rw [ih _ (by rw [h2]; exact hn) (fun op n hm => hf op n (by simp [hm])), h2]
      rfl
    | peekBytes skip n =>
      have h2 := (peekEvent_state skip n r).2.1
      simp only [runReads]
      rw [ih _ (by rw [h2]; exact hn) (fun op n hm => hf op n (by simp [hm])), h2]
      rfl

/-- C15 (part 2): if moreover no peek looks back before the furthest scalar already looked at,
every peek shows the scalar that the (skip+1)-th next read will use. Missing: peeks that look
back, for which the property is false (`C15_look_back_violates`). -/
theorem C15_history_partial (es : List JEvent) (r : PeekJson F)
    (hn : ∀ t ∈ r.pending, t ≠ .null) (hf : ∀ op n, JEvent.read op n ∈ es → op ≠ .float32)
    (hfw : forwardPeeks es r.cache.length r.pending.length = true) :
    runHistory es r = specHistory es r.pending := by
  induction es generalizing r with
  | nil => rfl
  | cons e es ih =>
    cases e with
    | read op n =>
      obtain ⟨h1, h2, h3⟩ := readEvent_spec op n (hf op n (by simp)) r hn
      simp only [runHistory, specHistory]
      simp only [forwardPeeks] at hfw
      rw [ih _ (fun t ht => hn t (by rw [h2] at ht; exact List.mem_of_mem_tail ht))
        (fun op n hm => hf op n (by simp [hm])) (by rw [h3, h2]; simpa using hfw), h1, h2]
    | peekUint skip n =>
      obtain ⟨h2, _, h3, _⟩ := peekEvent_state skip n r
      simp only [forwardPeeks, Bool.and_eq_true, decide_eq_true_eq] at hfw
      simp only [runHistory, specHistory]
      rw [ih _ (by rw [h2]; exact hn) (fun op n hm => hf op n (by simp [hm]))
        (by rw [h3, h2]; exact hfw.2), h2, (peekEvent_value skip n r hfw.1).1]
    | peekBytes skip n =>
      obtain ⟨_, h2, _, h3⟩ := peekEvent_state skip n r
      simp only [forwardPeeks, Bool.and_eq_true, decide_eq_true_eq] at hfw
      simp only [runHistory, specHistory]
      rw [ih _ (by rw [h2]; exact hn) (fun op n hm => hf op n (by simp [hm]))
        (by rw [h3, h2]; exact hfw.2), h2, (peekEvent_value skip n r hfw.1).2]

/-- Non-vacuity: peek 0, peek 2, two reads, peek 0 is a forward history on `[1,2,3]`... -/
example : forwardPeeks [.peekUint 0 8, .peekUint 2 8, .read .uint 8, .read .uint 8, .peekUint 0 8]
    0 3 = true := by decide

/-- C15 is violated by a peek that looks back: on `[1,2]`, after PeekUint(1), PeekUint(0) shows 2
although the next read will return 1. -/
theorem C15_look_back_violates :
    runHistory [.peekUint 1 8, .peekUint 0 8, .read .uint 8]
      (PeekJson.new [.num (⟨1⟩ : ToyFloat), .num ⟨2⟩])
      = [some (.uint 2), some (.uint 2), some (.uint 1)] := by decide

/-- C15 in full: in any history of peeks and reads every read gives the next scalar of the document, and every
peek the scalar that the (skip+1)-th next read will use; null is an error where it stands. -/
def C15_statement (F : Type) [GoFloat F] : Prop :=
  ∀ (es : List JEvent) (r : PeekJson F), runHistory es r = specHistory es r.pending

/-- The code violates C15. -/
theorem C15_violates : ¬ C15_statement ToyFloat := by
  intro h
  have h1 := h [.peekUint 1 8, .peekUint 0 8, .read .uint 8] (PeekJson.new [.num (⟨1⟩ : ToyFloat), .num ⟨2⟩])
  rw [C15_look_back_violates] at h1
  revert h1
  decide

/-- In general a peek that looks back shows the furthest scalar already looked at. -/
theorem C15_look_back_general (skip : Nat) (r : PeekJson F) (h : skip + 1 < r.cache.length) :
    ∃ r' t, PeekJson.peek skip r = (.ok t, r') ∧ r.cache.getLast? = some t := by
  have hl : skip < r.pending.length := by simp [PeekJson.pending]; omega
  obtain ⟨r', t, h1, _, _, h4⟩ := (peek_spec skip r).1 hl
  refine ⟨r', t, h1, ?_⟩
  rw [Nat.max_eq_left (by omega)] at h4
  unfold PeekJson.pending at h4
  rw [List.getElem?_append_left (by omega)] at h4
  rw [List.getLast?_eq_getElem?]; exact h4

/-- C15 is violated by nulls: on `[null, 7]` a read after a (failing) peek returns 7, silently
dropping the null, whereas without the peek it reports the null as an error. -/
theorem C15_null_dropped :
    runHistory [.peekUint 0 8, .read .uint 8]
      (PeekJson.new [.null, .num (⟨7⟩ : ToyFloat)]) = [none, some (.uint 7)] ∧
    runHistory [.read .uint 8]
      (PeekJson.new [.null, .num (⟨7⟩ : ToyFloat)]) = [none] := by decide

/-! ## C17 -/

/-- C17 is violated: with nothing cached, ReadFloat32 of the peekable reader recurses forever,
whatever the document contains and however deep the recursion may go. -/
theorem C17_readFloat32_diverges (fuel : Nat) (r : PeekJson F) (h : ∀ t ∈ r.cache, t = .null) :
    (PeekJson.readFloat32Fuel fuel r).1 = .diverge := by
  induction fuel generalizing r with
  | zero => rfl
  | succ fuel ih =>
    obtain ⟨b, c⟩ := r
    cases c with
    | nil =>
      simp only [PeekJson.readFloat32Fuel]
      rw [M.bind_ok (m := PeekJson.shift) (a := none) (s' := ⟨b, []⟩) rfl]
      exact ih _ h
    | cons t ts =>
      have : t = .null := h t (by simp)
      subst this
      simp only [PeekJson.readFloat32Fuel]
      rw [M.bind_ok (m := PeekJson.shift) (a := none) (s' := ⟨b, ts⟩) rfl]
      exact ih _ (fun t ht => h t (by simp [ht]))

/-- C17 (part): when a number has been peeked, ReadFloat32 returns it. Missing: the case
where nothing has been peeked, for which the property is false. -/
theorem C17_readFloat32_cached_partial (r : PeekJson F) (f : F) (ts : List (Tok F))
    (h : r.cache = .num f :: ts) : ∃ r', PeekJson.readFloat32 r = (.ok f, r') ∧
      r'.cache = ts ∧ r'.base.toks = r.base.toks := by
  obtain ⟨b, c⟩ := r
  subst h
  exact ⟨⟨{ b with pos := b.pos + 32 }, ts⟩, rfl, rfl, rfl⟩

/-- C17 in full. -/
def C17_statement (F : Type) [GoFloat F] : Prop :=
  ∀ (r : PeekJson F) (f : F) (ts : List (Tok F)), r.pending = .num f :: ts →
    ∃ r', PeekJson.readFloat32 r = (.ok f, r') ∧ r'.pending = ts

/-- The code violates C17, with every document. -/
theorem C17_violates : ¬ C17_statement ToyFloat := by
  intro h
  obtain ⟨r', h1, _⟩ := h (PeekJson.new [.num ⟨1⟩]) ⟨1⟩ [] (by decide)
  have h2 := C17_readFloat32_diverges ((PeekJson.new [Tok.num (⟨1⟩ : ToyFloat)]).cache.length + 1) (PeekJson.new [Tok.num (⟨1⟩ : ToyFloat)]) (by
    intro t ht; cases ht)
  have h3 : (PeekJson.readFloat32 (PeekJson.new [Tok.num (⟨1⟩ : ToyFloat)])).1 = .diverge := h2
  rw [h1] at h3
  cases h3

/-- The bound used by the model's `readFloat32` loses nothing: with any larger bound the result
is the same. -/
theorem C17_fuel_enough (k : Nat) (r : PeekJson F) :
    PeekJson.readFloat32Fuel (r.cache.length + 1 + k) r = PeekJson.readFloat32 r ∨
      ((PeekJson.readFloat32Fuel (r.cache.length + 1 + k) r).1 = .diverge ∧
        (PeekJson.readFloat32 r).1 = .diverge) := by
  obtain ⟨b, c⟩ := r
  unfold PeekJson.readFloat32
  induction c with
  | nil =>
    refine .inr ⟨C17_readFloat32_diverges _ _ (by simp), C17_readFloat32_diverges _ _ (by simp)⟩
  | cons t ts ih =>
    by_cases hn : t = .null
    · subst hn
      have e : ∀ m, PeekJson.readFloat32Fuel (m + 1) (⟨b, .null :: ts⟩ : PeekJson F)
          = PeekJson.readFloat32Fuel m ⟨b, ts⟩ := by
        intro m
        simp only [PeekJson.readFloat32Fuel]
        rw [M.bind_ok (m := PeekJson.shift) (a := none) (s' := ⟨b, ts⟩) rfl]
      simp only [List.length_cons]
      rw [show ts.length + 1 + 1 + k = (ts.length + 1 + k) + 1 by omega, e, e]
      exact ih
    · left
      have hsh : PeekJson.shift (⟨b, t :: ts⟩ : PeekJson F) = (.ok (some t), ⟨b, ts⟩) := by
        cases t <;> first | rfl | exact absurd rfl hn
      simp only [List.length_cons]
      rw [show ts.length + 1 + 1 + k = (ts.length + 1 + k) + 1 by omega]
      simp only [PeekJson.readFloat32Fuel]
      rw [M.bind_ok hsh, M.bind_ok hsh]

end Gobufr
