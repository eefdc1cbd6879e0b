import Verif.Spec.Ends
import Verif.Proofs.Stale
import Verif.Proofs.Accept
import Verif.Props.Factory
import Verif.Props.Unpack
import Verif.Props.Parser
import Verif.Props.PayloadShape
import Verif.Props.Ast

/-!
# Calls that end

Used for `C116`.
-/

namespace Gobufr.EndsSpec

open ParserSpec Flat

/-! ## Calls in general -/

/-- A call that ends, whatever the state. -/
def Live (m : M σ α) : Prop := ∀ s, (m s).1 ≠ .diverge

theorem Live.pure (a : α) : Live (Pure.pure a : M σ α) := fun _ h => nomatch h
theorem Live.fail (e : Err) : Live (M.fail e : M σ α) := fun _ h => nomatch h
theorem Live.crash (w : String) : Live (M.crash w : M σ α) := fun _ h => nomatch h
theorem Live.modify (f : σ → σ) : Live (M.modify f) := fun _ h => nomatch h
theorem Live.gets (f : σ → α) : Live (M.gets f) := fun _ h => nomatch h
theorem Live.get : Live (M.get : M σ σ) := fun _ h => nomatch h
theorem Live.lift {o : Outcome α} (h : o ≠ .diverge) : Live (M.lift o : M σ α) := fun _ => h
theorem Live.ok (f : σ → α × σ) : Live (fun s => (.ok (f s).1, (f s).2) : M σ α) := fun _ h => nomatch h

theorem Live.bind {m : M σ α} {f : α → M σ β} (h : Live m) (hf : ∀ a, Live (f a)) : Live (m >>= f) := by
  intro s
  rw [M.bind_apply]
  have := h s
  rcases hx : m s with ⟨o, p⟩
  rw [hx] at this
  cases o with
  | ok a => exact hf a p
  | err e => exact fun h => nomatch h
  | panic w => exact fun h => nomatch h
  | diverge => exact absurd rfl this

theorem Live.ite {p : Prop} [Decidable p] {m n : M σ α} (hm : Live m) (hn : Live n) : Live (if p then m else n) := by
  by_cases h : p
  · rw [if_pos h]; exact hm
  · rw [if_neg h]; exact hn

theorem Live.wrap {m : M σ α} (h : Live m) (w : String) : Live (M.wrapErr w m) := by
  intro s
  have := h s
  unfold M.wrapErr
  rcases hx : m s with ⟨o, p⟩
  rw [hx] at this
  cases o with
  | diverge => exact absurd rfl this
  | _ => exact fun h => nomatch h

theorem Live.zoom {g : σ → τ} {p : τ → σ → σ} {m : M τ α} (h : Live m) : Live (M.zoom g p m) := fun s => h (g s)

theorem wrap_ne {w : String} {o : Outcome α} (h : o ≠ .diverge) : Outcome.wrapErr w o ≠ .diverge := by
  cases o with
  | diverge => exact absurd rfl h
  | _ => exact fun h => nomatch h

theorem wrapO_ne {w : String} {o : Outcome α} (h : o ≠ .diverge) : BitReader.wrapO w o ≠ .diverge := by
  cases o with
  | diverge => exact absurd rfl h
  | _ => exact fun h => nomatch h

theorem obind_ne {o : Outcome α} {f : α → Outcome β} (h : o ≠ .diverge) (hf : ∀ a, f a ≠ .diverge) :
    (o >>= f) ≠ .diverge := by
  cases o with
  | ok a => exact hf a
  | diverge => exact absurd rfl h
  | _ => exact fun h => nomatch h

/-! ## Readers -/

theorem live_readBit : Live readBit := by
  intro s
  unfold readBit
  split <;> exact fun h => nomatch h

theorem live_readByte : Live readByte := by
  intro s
  unfold readByte
  split <;> exact fun h => nomatch h

theorem live_byteLoop : ∀ k u, Live (readBitsByteLoop k u)
  | 0, _ => .pure _
  | k + 1, _ => live_readByte.bind fun _ => live_byteLoop k _

theorem live_bitLoop : ∀ k u, Live (readBitsBitLoop k u)
  | 0, _ => .pure _
  | k + 1, _ => live_readBit.bind fun _ => live_bitLoop k _

theorem live_readBits (n : Int) : Live (readBits n) := (live_byteLoop _ _).bind fun _ => live_bitLoop _ _

theorem live_onSrc {m : M Bits α} (h : Live m) : Live (BitReader.onSrc m) := fun r => h r.src

theorem live_advance (n : Int) : Live (BitReader.advance n) := fun _ h => nomatch h

theorem live_bUint (n : Int) : Live (BitReader.readUint n) := (live_advance _).bind fun _ => live_onSrc (live_readBits _)

theorem live_bBool : Live BitReader.readBool := (live_advance _).bind fun _ => live_onSrc live_readBit

theorem live_bInt (n : Int) : Live (BitReader.readInt n) :=
  live_bBool.bind fun _ => (live_advance _).bind fun _ => (live_onSrc (live_readBits _)).bind fun _ =>
    Live.ite (.pure _) (.pure _)

theorem live_bBytes (n : Int) : Live (BitReader.readBytes n) := fun r => readBytes_not_diverge n r

theorem live_bBinaryLoop : ∀ k n b, Live (BitReader.readBinaryLoop k n b)
  | 0, _, _ => .pure _
  | k + 1, n, b => by
    intro r
    unfold BitReader.readBinaryLoop
    have := live_onSrc (live_readBits (if n < 8 then n else 8)) r
    split
    · exact live_bBinaryLoop k _ _ _
    · exact fun h => nomatch h
    · exact fun h => nomatch h
    · next h => rw [h] at this; exact absurd rfl this

theorem live_bBinary (n : Int) : Live (BitReader.readBinary n) :=
  (live_advance _).bind fun _ => (live_bBinaryLoop _ _ _).bind fun b => by
    cases b <;> exact .pure _

theorem bufPeek_ne (u : Bits) (n : Int) : BitReader.bufPeek u n ≠ .diverge := by
  unfold BitReader.bufPeek
  split
  · exact fun h => nomatch h
  · split
    · exact fun h => nomatch h
    · dsimp only
      split <;> exact fun h => nomatch h

theorem live_bPeek (skip n : Int) : Live (BitReader.peek skip n) := by
  intro r
  unfold BitReader.peek
  split
  · exact fun h => nomatch h
  · split
    · split <;> exact fun h => nomatch h
    · split <;> exact fun h => nomatch h
    · exact fun h => nomatch h
    · next h => exact absurd h (bufPeek_ne _ _)

theorem live_bPeekUint (skip n : Int) : Live (BitReader.peekUint skip n) :=
  ((live_bPeek _ _).wrap _).bind fun _ => .lift (wrapO_ne (live_bUint _ _))

variable {F : Type}

theorem tokenLoop_ne (e : Err) : ∀ ts : List (Tok F), (FlatJson.tokenLoop e ts).1 ≠ .diverge
  | [] => fun h => nomatch h
  | .delim :: ts => tokenLoop_ne e ts
  | .null :: _ | .bool _ :: _ | .num _ :: _ | .str _ :: _ => fun h => nomatch h

theorem live_token : Live (FlatJson.token : M (FlatJson F) (Tok F)) := fun r => tokenLoop_ne r.endErr r.toks

theorem live_fWith {conv : Tok F → Outcome α} (h : ∀ t, conv t ≠ .diverge) (w : Int) : Live (FlatJson.readWith w conv) :=
  live_token.bind fun _ => (Live.modify _).bind fun _ => .lift (h _)

theorem live_jWith {conv : Tok F → Outcome α} (h : ∀ t, conv t ≠ .diverge) (w : Int) : Live (PeekJson.readWith w conv) := by
  unfold PeekJson.readWith
  have hs : Live (PeekJson.shift : M (PeekJson F) (Option (Tok F))) := by
    intro s
    unfold PeekJson.shift
    split <;> exact fun h => nomatch h
  refine hs.bind fun o => ?_
  cases o with
  | some t => exact (Live.modify _).bind fun _ => .lift (h _)
  | none => exact fun r => live_fWith h w r.base

theorem toFloat_ne (t : Tok F) : FlatJson.toFloat t ≠ .diverge := by
  cases t <;> exact fun h => nomatch h

theorem toBool_ne (t : Tok F) : FlatJson.toBool t ≠ .diverge := by
  cases t <;> exact fun h => nomatch h

theorem toStr_ne (t : Tok F) : FlatJson.toStr t ≠ .diverge := by
  cases t <;> exact fun h => nomatch h

theorem toUint_ne [GoFloat F] (t : Tok F) : FlatJson.toUint t ≠ .diverge := obind_ne (toFloat_ne t) fun _ h => nomatch h

theorem toInt_ne [GoFloat F] (t : Tok F) : FlatJson.toInt t ≠ .diverge := obind_ne (toFloat_ne t) fun _ h => nomatch h

theorem parseBin8_ne : ∀ s n, parseBin8 s n ≠ .diverge
  | [], _ => by unfold parseBin8; exact fun h => nomatch h
  | c :: cs, n => by
    unfold parseBin8
    split
    · exact parseBin8_ne cs _
    · split
      · exact parseBin8_ne cs _
      · exact fun h => nomatch h

theorem fromString_ne : ∀ s b, newBinaryFromStringLoop s b ≠ .diverge := by
  intro s b
  fun_induction newBinaryFromStringLoop s b with
  | case1 => exact obind_ne (parseBin8_ne _ _) ‹_›
  | case2 => exact fun h => nomatch h
  | case3 => exact obind_ne (parseBin8_ne _ _) fun _ h => nomatch h

theorem newBinary_ne (b : List UInt8) (n : Int) : newBinary b n ≠ .diverge := by
  intro h
  unfold newBinary at h
  dsimp only at h
  split at h
  · split at h <;> cases h
  · split at h <;> cases h

theorem toBinary_ne (t : Tok F) : FlatJson.toBinary t ≠ .diverge :=
  obind_ne (toStr_ne t) fun _ => obind_ne (obind_ne (fromString_ne _ _) fun _ => newBinary_ne _ _) fun _ h => nomatch h

theorem live_call {mb : M BitReader α} {mj : M (PeekJson F) α} (hb : Live mb) (hj : Live mj) : Live (Reader.call mb mj)
  | .bin r => hb r
  | .json r => hj r

theorem live_fill : ∀ k, Live (PeekJson.fill k : M (PeekJson F) Unit)
  | 0 => .pure _
  | k + 1 => by
    have h : Live (PeekJson.onBase FlatJson.token : M (PeekJson F) (Tok F)) := fun r => live_token r.base
    exact (h.wrap _).bind fun _ => (Live.modify _).bind fun _ => live_fill k

theorem live_jPeek (skip : Int) : Live (PeekJson.peek skip : M (PeekJson F) (Tok F)) :=
  Live.get.bind fun r => (live_fill _).bind fun _ => Live.get.bind fun r => by
    cases r.cache.getLast? with
    | some t => exact .pure _
    | none => exact .crash _

section
variable [GoFloat F]

theorem live_readUint (n : Int) : Live (Reader.readUint n : M (Reader F) Nat) :=
  live_call (live_bUint n) (live_jWith toUint_ne _)
theorem live_readInt (n : Int) : Live (Reader.readInt n : M (Reader F) Int) :=
  live_call (live_bInt n) (live_jWith toInt_ne _)
theorem live_readNumber (n : Int) : Live (Reader.readNumber n : M (Reader F) F) :=
  live_call ((live_bUint n).bind fun _ => .pure _) (live_jWith toFloat_ne _)
theorem live_peekUint (skip n : Int) : Live (Reader.peekUint skip n : M (Reader F) Nat) :=
  live_call (live_bPeekUint skip n) ((live_jPeek _).bind fun _ => .lift (toUint_ne _))
end

theorem live_readBool : Live (Reader.readBool : M (Reader F) Bool) := live_call live_bBool (live_jWith toBool_ne _)
theorem live_readBytes (n : Int) : Live (Reader.readBytes n : M (Reader F) (List UInt8)) :=
  live_call (live_bBytes n) (live_jWith toStr_ne _)
theorem live_readBinary (n : Int) : Live (Reader.readBinary n : M (Reader F) (Option Binary)) :=
  live_call (live_bBinary n) (live_jWith toBinary_ne _)

/-! ## Unpacking -/

section
variable [GoFloat F]

omit [GoFloat F] in
theorem missing_ne (info : PackingInfo F) (x : Nat) : unpackMissing info x ≠ .diverge := by
  unfold unpackMissing
  split <;> exact fun h => nomatch h

theorem numeric_ne (info : PackingInfo F) (x : Nat) : unpackNumeric info x ≠ .diverge := by
  unfold unpackNumeric
  refine obind_ne (missing_ne _ _) fun y => ?_
  split
  · exact fun h => nomatch h
  · dsimp only
    split <;> exact fun h => nomatch h

theorem live_uncompress (info : PackingInfo F) : Live (uncompressUnpack info) := by
  unfold uncompressUnpack
  split
  · exact (live_readBytes _).bind fun _ => .pure _
  · exact (live_readInt _).bind fun _ => .pure _
  · exact Live.ite (.pure _) ((live_readUint _).bind fun _ => .lift (missing_ne _ _))
  · exact Live.ite (.pure _) ((live_readUint _).bind fun _ => .lift (missing_ne _ _))
  · exact (live_readUint _).bind fun _ => .lift (numeric_ne _ _)
  · exact (live_readBinary _).bind fun _ => .pure _

theorem live_json (info : PackingInfo F) : Live (jsonUnpack info) := by
  unfold jsonUnpack
  split
  · exact (live_readBytes _).bind fun _ => .pure _
  · exact (live_readInt _).bind fun _ => .pure _
  · exact (live_readUint _).bind fun _ => .pure _
  · exact (live_readUint _).bind fun _ => .pure _
  · exact (live_readNumber _).bind fun _ => .pure _
  · exact (live_readBinary _).bind fun _ => .pure _

theorem live_diff : Live (readNbitsDiff : M (Reader F) Int) := (live_readUint _).bind fun _ => .pure _

omit [GoFloat F] in
theorem live_make (n : Int) : Live (makeCheck n : M σ Unit) := Live.ite (.crash _) (.pure _)

omit [GoFloat F] in
theorem live_fillM {f : M σ α} (h : Live f) : ∀ k, Live (fillM f k)
  | 0 => .pure _
  | k + 1 => h.bind fun _ => (live_fillM h k).bind fun _ => .pure _

theorem live_others (n : Int) (info : PackingInfo F) {g : PackingInfo F → Nat → Outcome (Val F)}
    (hg : ∀ x, g info x ≠ .diverge) : Live (unpackOthers n info g) :=
  (live_readUint _).bind fun _ => live_diff.bind fun _ => (live_make _).bind fun _ =>
    Live.ite ((Live.lift (hg _)).bind fun _ => .pure _) (Live.ite (.fail _) ((live_fillM ((live_readUint _).bind fun _ =>
      Live.ite (.pure _) (.lift (hg _))) _).bind fun _ => .pure _))

theorem live_compressed (n : Int) (fuel : Nat) (info : PackingInfo F) (h : info.unit ≠ .binary) :
    Live (compressedUnpack n fuel info) := by
  unfold compressedUnpack
  split
  · exact (live_readBytes _).bind fun _ => live_diff.bind fun _ => (live_make _).bind fun _ => Live.ite (.pure _)
      (Live.ite (.fail _) ((live_fillM (live_readBytes _) _).bind fun _ => .pure _))
  · exact (live_readInt _).bind fun _ => live_diff.bind fun _ => (live_make _).bind fun _ => Live.ite (.pure _)
      ((live_fillM ((live_readUint _).bind fun _ => Live.ite (.pure _) (.crash _)) _).bind fun _ => .pure _)
  · exact Live.ite ((live_make _).bind fun _ => .pure _) (live_others _ _ fun _ => missing_ne _ _)
  · exact Live.ite ((live_make _).bind fun _ => .pure _) (live_others _ _ fun _ => missing_ne _ _)
  · exact live_others _ _ fun _ => numeric_ne _ _
  · next h' => exact absurd h' h

/-- The unpacker of compressed data. -/
def Packs : Unpacker → Prop
  | .compressed _ _ => True
  | _ => False

theorem live_unpack (u : Unpacker) (info : PackingInfo F) (h : Packs u → info.unit ≠ .binary) : Live (u.unpack info) := by
  cases u with
  | uncompress => exact (live_uncompress info).bind fun _ => .pure _
  | compressed n fuel => exact (live_compressed n fuel info (h trivial)).bind fun _ => .pure _
  | json => exact (live_json info).bind fun _ => .pure _

/-- Unpacking does not depend on the fuel. -/
theorem compressed_fuel (n : Int) (f f' : Nat) (info : PackingInfo F) :
    compressedUnpack n f info = compressedUnpack n f' info := by
  have : unpackBinary (F := F) f = unpackBinary f' := by
    funext i x
    rw [unpackBinary_diverges, unpackBinary_diverges]
  unfold compressedUnpack
  rw [this]

end

/-! ## The visitor -/

/-- The descriptor may be unpacked: if `b`, its unit is not "binary". -/
def Fit (b : Prop) (d : NodeDesc) : Prop := b → ∀ x e, d.d = some x → x.entry = .b e → e.unit ≠ .binary

/-- The descriptors of the nodes with values may be unpacked. -/
def HeapOk (b : Prop) (s : Vis F) : Prop := ∀ x ∈ s.heap, ∀ td i info mv nd, x.kind = .valued td i info mv nd → Fit b td

/-- A call that ends and keeps `HeapOk`; the result meets `Q`. -/
def Fin (b : Prop) (Q : α → Prop) (m : M (Vis F) α) : Prop := ∀ s, HeapOk b s →
  (m s).1 ≠ .diverge ∧ HeapOk b (m s).2 ∧ ∀ a, (m s).1 = .ok a → Q a

variable {b : Prop} {c : VisCfg}

theorem Fin.bind {Q : α → Prop} {Q' : β → Prop} {m : M (Vis F) α} {f : α → M (Vis F) β} (h : Fin b Q m)
    (hf : ∀ a, Q a → Fin b Q' (f a)) : Fin b Q' (m >>= f) := by
  intro s hs
  obtain ⟨h1, h2, h3⟩ := h s hs
  rw [M.bind_apply]
  rcases hx : m s with ⟨o, p⟩
  rw [hx] at h1 h2 h3
  cases o with
  | ok a => exact hf a (h3 a rfl) p h2
  | err e => exact ⟨fun h => (nomatch h), h2, fun _ h => (nomatch h)⟩
  | panic w => exact ⟨fun h => (nomatch h), h2, fun _ h => (nomatch h)⟩
  | diverge => exact absurd rfl h1

theorem Fin.ite {Q : α → Prop} {p : Prop} [Decidable p] {m n : M (Vis F) α} (hm : Fin b Q m) (hn : Fin b Q n) :
    Fin b Q (if p then m else n) := by
  by_cases h : p
  · rw [if_pos h]; exact hm
  · rw [if_neg h]; exact hn

theorem Fin.weak {Q : α → Prop} {m : M (Vis F) α} (h : Fin b Q m) : Fin b (fun _ => True) m :=
  fun s hs => ⟨(h s hs).1, (h s hs).2.1, fun _ _ => trivial⟩

/-- A call that ends and leaves the nodes alone. -/
theorem Fin.same {m : M (Vis F) α} (h : Live m) (hk : ∀ s, (m s).2.heap = s.heap) : Fin b (fun _ => True) m :=
  fun s hs => ⟨h s, by unfold HeapOk; rw [hk]; exact hs, fun _ _ => trivial⟩

theorem Fin.pure {Q : α → Prop} {a : α} (h : Q a) : Fin b Q (Pure.pure a : M (Vis F) α) :=
  fun _ hs => ⟨fun h => (nomatch h), hs, fun _ e => by cases e; exact h⟩

theorem Fin.fail {Q : α → Prop} (e : Err) : Fin b Q (M.fail e : M (Vis F) α) :=
  fun _ hs => ⟨fun h => (nomatch h), hs, fun _ e => (nomatch e)⟩

theorem Fin.crash {Q : α → Prop} (w : String) : Fin b Q (M.crash w : M (Vis F) α) :=
  fun _ hs => ⟨fun h => (nomatch h), hs, fun _ e => (nomatch e)⟩

theorem Fin.query {Q : α → Prop} {q : Vis F → Outcome α} (h : ∀ s, q s ≠ .diverge)
    (hq : ∀ s a, HeapOk b s → q s = .ok a → Q a) : Fin b Q (fun s => (q s, s) : M (Vis F) α) :=
  fun s hs => ⟨h s, hs, fun a e => hq s a hs e⟩

theorem Fin.modify (g : Vis F → Vis F) (h : ∀ s, (g s).heap = s.heap) : Fin b (fun _ => True) (M.modify g) :=
  .same (.modify g) h

theorem Fin.defer {Q : α → Prop} {m : M (Vis F) α} {d : M (Vis F) PUnit} (h : Fin b Q m) (hd : Fin b (fun _ => True) d) :
    Fin b Q (M.deferDo d m) := by
  intro s hs
  obtain ⟨h1, h2, h3⟩ := h s hs
  unfold M.deferDo
  rcases hx : m s with ⟨o, p⟩
  rw [hx] at h1 h2 h3
  obtain ⟨k1, k2, -⟩ := hd p h2
  rcases hy : d p with ⟨o', q⟩
  rw [hy] at k1 k2
  cases o with
  | diverge => exact absurd rfl h1
  | ok a =>
    dsimp only
    rw [hy]
    cases o' with
    | diverge => exact absurd rfl k1
    | panic w => exact ⟨fun h => (nomatch h), k2, fun _ h => (nomatch h)⟩
    | ok _ => exact ⟨fun h => (nomatch h), k2, h3⟩
    | err _ => exact ⟨fun h => (nomatch h), k2, h3⟩
  | err e =>
    dsimp only
    rw [hy]
    cases o' with
    | diverge => exact absurd rfl k1
    | panic w => exact ⟨fun h => (nomatch h), k2, fun _ h => (nomatch h)⟩
    | ok _ => exact ⟨fun h => (nomatch h), k2, h3⟩
    | err _ => exact ⟨fun h => (nomatch h), k2, h3⟩
  | panic w =>
    dsimp only
    rw [hy]
    cases o' with
    | diverge => exact absurd rfl k1
    | panic w => exact ⟨fun h => (nomatch h), k2, fun _ h => (nomatch h)⟩
    | ok _ => exact ⟨fun h => (nomatch h), k2, h3⟩
    | err _ => exact ⟨fun h => (nomatch h), k2, h3⟩

theorem Fin.ignore {m : M (Vis F) Unit} (h : Fin b (fun _ => True) m) : Fin b (fun _ => True) (M.ignoreErr () m) := by
  intro s hs
  obtain ⟨h1, h2, -⟩ := h s hs
  unfold M.ignoreErr
  rcases hx : m s with ⟨o, p⟩
  rw [hx] at h1 h2
  cases o with
  | diverge => exact absurd rfl h1
  | _ => exact ⟨fun h => (nomatch h), h2, fun _ _ => trivial⟩

/-- A new node. -/
theorem fin_alloc (k : NodeKind F) (h : ∀ td i info mv nd, k = .valued td i info mv nd → Fit b td) :
    Fin b (fun _ => True) (Vis.alloc k) := by
  intro s hs
  refine ⟨fun h => (nomatch h), ?_, fun _ _ => trivial⟩
  intro x hx
  rcases List.mem_append.1 hx with hx | hx
  · exact hs x hx
  · cases List.mem_singleton.1 hx
    exact h

theorem heapOk_modify {s : Vis F} (hs : HeapOk b s) (n : NodeId) (f : Node F → Node F)
    (hf : ∀ x td i info mv nd, (f x).kind = .valued td i info mv nd → ∃ i' info' mv' nd', x.kind = .valued td i' info' mv' nd') :
    ∀ x ∈ s.heap.modify n f, ∀ td i info mv nd, x.kind = .valued td i info mv nd → Fit b td := by
  intro x hx td i info mv nd hk
  obtain ⟨j, hj⟩ := List.mem_iff_getElem?.1 hx
  rw [List.getElem?_modify] at hj
  cases hy : s.heap[j]? with
  | none => rw [hy] at hj; cases hj
  | some y =>
    rw [hy] at hj
    have hm := List.mem_iff_getElem?.2 ⟨j, hy⟩
    by_cases hn : n = j
    · simp only [hn, if_pos] at hj
      cases hj
      obtain ⟨_, _, _, _, e⟩ := hf _ _ _ _ _ _ hk
      exact hs y hm _ _ _ _ _ e
    · simp only [hn, if_false] at hj
      cases hj
      exact hs _ hm _ _ _ _ _ hk

theorem fin_addMember (n : NodeId) (m : Option NodeId) : Fin b (fun _ => True) (Vis.addMember (F := F) n m) := by
  intro s hs
  refine ⟨fun h => (nomatch h), ?_, fun _ _ => trivial⟩
  exact heapOk_modify hs n _ fun x td i info mv nd e => ⟨_, _, _, _, e⟩

theorem fin_treeAdd (n : NodeId) : Fin b (fun _ => True) (Vis.treeAdd (F := F) n) :=
  fun s hs => fin_addMember s.node (some n) s hs

theorem fin_treePop : Fin b (fun _ => True) (Vis.treePop (F := F)) := by
  refine .same (fun s => ?_) fun s => ?_
  · unfold Vis.treePop; split <;> exact fun h => nomatch h
  · unfold Vis.treePop; split <;> rfl

theorem fin_valueless (d : Option Desc) : Fin b (fun _ => True) (Vis.addValueless d : M (Vis F) Unit) :=
  (fin_alloc _ (by intro _ _ _ _ _ e; cases e)).bind fun n _ => fin_treeAdd n

theorem fin_within {k : NodeKind F} (hk : ∀ td i info mv nd, k ≠ .valued td i info mv nd) {m : M (Vis F) Unit}
    (h : Fin b (fun _ => True) m) : Fin b (fun _ => True) (Vis.within k m) := by
  unfold Vis.within
  exact (fin_alloc _ fun _ _ _ _ _ e => absurd e (hk _ _ _ _ _)).bind fun n _ =>
    Fin.bind (Q := fun _ => True) (fun _ hs => ⟨fun h => (nomatch h), hs, fun _ _ => trivial⟩) fun _ _ => h.defer fin_treePop

theorem index_ne (l : List α) (i : Int) : index l i ≠ .diverge := by
  unfold index
  split
  · exact fun h => nomatch h
  · split <;> exact fun h => nomatch h

theorem len_ne (c : Cells F) : c.len ≠ .diverge := by
  unfold Cells.len
  split <;> exact fun h => nomatch h

theorem cell_ne (i : Int) (c : Cells F) : c.cell i ≠ .diverge := by
  unfold Cells.cell
  split
  · exact index_ne _ _
  · exact fun h => nomatch h
  · exact index_ne _ _

theorem addColumn_ne (n : NodeId) : ∀ (vs : List (Val F)) ts, Cells.addColumn n vs ts ≠ .diverge
  | [], _ => fun h => nomatch h
  | _ :: _, [] => fun h => nomatch h
  | _ :: vs, _ :: ts => obind_ne (addColumn_ne n vs ts) fun _ h => nomatch h

theorem fin_cellsAdd (n : NodeId) (val : Unpacked F) : Fin b (fun _ => True) (Vis.cellsAdd n val) := by
  intro s hs
  have key : ∀ i mv nd, HeapOk b { s with heap := s.heap.setIndex n i mv nd } := by
    intro i mv nd
    refine heapOk_modify hs n _ fun x td i info mv nd e => ?_
    dsimp only at e
    split at e
    · next h => cases e; exact ⟨_, _, _, _, h⟩
    · exact ⟨_, _, _, _, e⟩
  refine ⟨?_, ?_, fun _ _ => trivial⟩
  · unfold Vis.cellsAdd
    split
    · exact fun h => nomatch h
    · exact fun h => nomatch h
    · exact fun h => nomatch h
    · exact fun h => nomatch h
    · split
      · exact fun h => nomatch h
      · exact fun h => nomatch h
      · exact fun h => nomatch h
      · next h => exact absurd h (addColumn_ne _ _ _)
  · unfold Vis.cellsAdd
    split
    · exact key _ _ _
    · exact hs
    · exact hs
    · exact hs
    · split
      · exact key _ _ _
      · exact hs
      · exact hs
      · exact hs

theorem ifaceEq_ne [GoFloat F] (a b : Val F) : ifaceEq a b ≠ .diverge := by
  unfold ifaceEq
  split <;> exact fun h => nomatch h

theorem sameValue_ne [GoFloat F] (v : Val F) (i : Int) : ∀ ts, Cells.sameValue v i ts ≠ .diverge
  | [] => fun h => nomatch h
  | t :: ts => by
    unfold Cells.sameValue
    refine obind_ne (index_ne _ _) fun c => obind_ne (ifaceEq_ne _ _) fun x => ?_
    split
    · exact sameValue_ne v i ts
    · exact fun h => nomatch h

theorem lastEq_ne [GoFloat F] (c : Cells F) : c.lastCellEquality ≠ .diverge := by
  unfold Cells.lastCellEquality
  split
  · exact fun h => nomatch h
  · exact fun h => nomatch h
  · exact obind_ne (index_ne _ _) fun _ => sameValue_ne _ _ _

theorem uintValue_ne [GoFloat F] (c : Cell F) : c.uintValue ≠ .diverge := by
  unfold Cell.uintValue
  split <;> exact fun h => nomatch h

theorem floatValue_ne [GoFloat F] (c : Cell F) : c.floatValue ≠ .diverge := by
  unfold Cell.floatValue
  split <;> exact fun h => nomatch h

section
variable [GoFloat F]

theorem calcRefval_ne (s : Vis F) (d : Desc) (e : Bentry) : Vis.calcRefval s d e ≠ .diverge := by
  unfold Vis.calcRefval
  split
  · refine obind_ne (lastEq_ne _) fun x => ?_
    split
    · exact fun h => nomatch h
    · exact obind_ne (cell_ne _ _) fun _ => obind_ne (floatValue_ne _) fun _ h => nomatch h
  · exact fun h => nomatch h

theorem calcInfo_ne (s : Vis F) (d : NodeDesc) : Vis.calcPackingInfo s d ≠ .diverge := by
  unfold Vis.calcPackingInfo
  split
  · exact fun h => nomatch h
  · split
    · split
      · exact fun h => nomatch h
      · exact obind_ne (calcRefval_ne _ _ _) fun _ h => nomatch h
      · exact fun h => nomatch h
    · exact fun h => nomatch h

theorem calcInfo_unit {s : Vis F} {d : NodeDesc} (hd : Fit b d) {info : PackingInfo F}
    (h : Vis.calcPackingInfo s d = .ok info) : b → info.unit ≠ .binary := by
  intro hb
  unfold Vis.calcPackingInfo at h
  split at h
  · cases h
  · next x hx =>
    split at h
    · next e he =>
      have hu := hd hb x e hx he
      split at h
      · cases h; exact hu
      · generalize Vis.calcRefval s x e = o at h
        cases o with
        | ok r => cases h; exact hu
        | err e => cases h
        | panic w => cases h
        | diverge => cases h
      · cases h; exact hu
    · cases h

end

/-- Unpacking ends if the unit allows it. -/
def Unpacks (F : Type) [GoFloat F] (b : Prop) (c : VisCfg) : Prop :=
  ∀ info : PackingInfo F, (b → info.unit ≠ .binary) → Live (c.unpacker.unpack info)

variable [GoFloat F]

theorem fin_build (hc : Unpacks F b c) {d : NodeDesc} (hd : Fit b d) {info : PackingInfo F} (hi : b → info.unit ≠ .binary) :
    Fin b (fun _ => True) (Vis.buildValuedNodeWithInfo c d info) := by
  unfold Vis.buildValuedNodeWithInfo
  refine Fin.bind (.same (hc info hi).zoom fun _ => rfl) fun val _ => ?_
  refine (fin_alloc _ fun td i info mv nd e => ?_).bind fun n _ => (fin_treeAdd n).bind fun _ _ =>
    (fin_cellsAdd n val).bind fun _ _ => .pure trivial
  cases e
  exact hd

theorem fin_buildNode (hc : Unpacks F b c) {d : NodeDesc} (hd : Fit b d) :
    Fin b (fun _ => True) (Vis.buildValuedNode c d : M (Vis F) NodeId) :=
  (Fin.query (Q := fun info => b → info.unit ≠ .binary) (fun s => calcInfo_ne s d) fun _ _ _ e => calcInfo_unit hd e).bind
    fun _ hi => fin_build hc hd hi

omit [GoFloat F] in
theorem fin_addMembers (n : NodeId) : ∀ ms, Fin b (fun _ => True) (Vis.addMembers (F := F) n ms)
  | [] => .pure trivial
  | m :: ms => (fin_addMember n (some m)).bind fun _ _ => fin_addMembers n ms

theorem fin_assocLoop (hc : Unpacks F b c) {d : Desc} (hd : Fit b ⟨some d, true⟩) : ∀ ps,
    Fin b (fun _ => True) (Vis.assocLoop (F := F) c d ps)
  | [] => .pure trivial
  | p :: ps => by
    unfold Vis.assocLoop
    exact (fin_build hc hd (by intro _ h; cases h)).bind fun n _ => (fin_addMember _ _).bind fun _ _ =>
      (fin_assocLoop hc hd ps).bind fun _ _ => .pure trivial

theorem fin_assoc (hc : Unpacks F b c) {d : Desc} (hd : Fit b ⟨some d, true⟩) :
    Fin b (fun _ => True) (Vis.buildAssocNodes (F := F) c d) := by
  intro s hs
  unfold Vis.buildAssocNodes
  split
  · exact ⟨fun h => (nomatch h), hs, fun _ _ => trivial⟩
  · exact fin_assocLoop hc hd s.assoc s hs

theorem fin_zero (hc : Unpacks F b c) {d : Option Desc} (hd : Fit b ⟨d, false⟩) :
    Fin b (fun _ => True) (M.ignoreErr () (Vis.buildZeroNode c d) : M (Vis F) Unit) := by
  unfold Vis.buildZeroNode
  refine Fin.ignore (Fin.ite ?_ (fin_valueless d))
  exact (fin_build hc hd (by intro _ h; cases h)).bind fun _ _ => .pure trivial

omit [GoFloat F] in
theorem fin_repeat {m : M (Vis F) Unit} (h : Fin b (fun _ => True) m) : ∀ k, Fin b (fun _ => True) (Vis.repeatM m k)
  | 0 => .pure trivial
  | k + 1 => h.bind fun _ _ => fin_repeat h k

omit [GoFloat F] in
theorem nodesOfCells_ne (c : Cells F) : ∀ k i, Vis.nodesOfCells c k i ≠ .diverge
  | 0, _ => fun h => nomatch h
  | k + 1, i => obind_ne (cell_ne _ _) fun _ => obind_ne (nodesOfCells_ne c k (i + 1)) fun _ h => nomatch h

omit [GoFloat F] in
theorem fin_len : Fin b (fun _ => True) (Vis.len (F := F)) := .query (fun s => len_ne s.cells) fun _ _ _ _ => trivial

omit [GoFloat F] in
theorem fin_valuedNodes {m : M (Vis F) Unit} (h : Fin b (fun _ => True) m) : Fin b (fun _ => True) (Vis.valuedNodes m) := by
  unfold Vis.valuedNodes
  exact fin_len.bind fun a0 _ => h.bind fun _ _ => fin_len.bind fun a1 _ => Fin.ite (.crash _)
    (.query (fun s => nodesOfCells_ne s.cells _ _) fun _ _ _ _ => trivial)

theorem bitsLoop_ne (c : Cells F) : ∀ k i, Vis.bitsLoop c k i ≠ .diverge
  | 0, _ => fun h => nomatch h
  | k + 1, i => obind_ne (cell_ne _ _) fun _ => obind_ne (uintValue_ne _) fun _ =>
      obind_ne (bitsLoop_ne c k (i + 1)) fun _ h => nomatch h

omit [GoFloat F] in
theorem targetLoop_ne (c : Cells F) (n : Nat) : ∀ k acc, Vis.targetLoop c n k acc ≠ .diverge
  | 0, _ => fun h => nomatch h
  | k + 1, acc => by
    unfold Vis.targetLoop
    refine obind_ne (cell_ne _ _) fun x => ?_
    split
    · exact targetLoop_ne c n k _
    · exact fun h => nomatch h

theorem bits_ne (s : Vis F) : s.bits ≠ .diverge := by
  unfold Vis.bits
  split
  · exact fun h => nomatch h
  · split
    · exact fun h => nomatch h
    · exact bitsLoop_ne _ _ _

theorem fin_initTargets : Fin b (fun _ => True) (Vis.initTargetNodes (F := F)) := by
  unfold Vis.initTargetNodes
  refine (Fin.query (Q := fun _ => True) bits_ne fun _ _ _ _ => trivial).bind fun bits _ =>
    (Fin.query (Q := fun _ => True) (fun s => targetLoop_ne s.cells _ _ _) fun _ _ _ _ => trivial).bind fun nodes _ =>
    Fin.ite (.fail _) ?_
  exact (Fin.modify _ fun _ => rfl).bind fun _ _ => .pure trivial

omit [GoFloat F] in
theorem fin_attach (as : List NodeId) : ∀ ss ts, Fin b (fun _ => True) (Vis.attach (F := F) as ss ts)
  | [], _ => .pure trivial
  | _ :: _, [] => .crash _
  | _ :: ss, _ :: ts => (fin_addMember _ _).bind fun _ _ => (fin_addMembers _ _).bind fun _ _ => fin_attach as ss ts

theorem fin_marker (hc : Unpacks F b c) {d : Desc} (hd : Fit b ⟨some d, false⟩) :
    Fin b (fun _ => True) (Vis.visitMarker c d : M (Vis F) Unit) := by
  unfold Vis.visitMarker
  refine Fin.bind (Q := fun _ => True) (.same (fun s => ?_) fun s => ?_) fun t _ => ?_
  · unfold Vis.nextTargetNode; split <;> exact fun h => nomatch h
  · unfold Vis.nextTargetNode; split <;> rfl
  · refine Fin.bind (Q := Fit b) (.query (fun s => ?_) fun s a hs e => ?_) fun td htd => ?_
    · split <;> exact fun h => nomatch h
    · split at e
      · next x h => cases e; exact hs _ (List.mem_iff_getElem?.2 ⟨_, h⟩) _ _ _ _ _ rfl
      · cases e
    · refine Fin.bind (Q := fun info => b → info.unit ≠ .binary) (.query (fun s => calcInfo_ne s td) fun _ _ _ e =>
        calcInfo_unit htd e) fun info hi => ?_
      refine Fin.bind (fin_build hc hd ?_) fun _ _ => .pure trivial
      split
      · exact hi
      · exact hi

theorem fin_delayed {m n : M (Vis F) Unit} (hm : Fin b (fun _ => True) m) (hn : Fin b (fun _ => True) n) :
    Fin b (fun _ => True) (Vis.visitDelayed m n) := by
  unfold Vis.visitDelayed
  refine hm.bind fun _ _ => (Fin.query (Q := fun _ => True) (fun s => lastEq_ne s.cells) fun _ _ _ _ => trivial).bind fun x _ =>
    Fin.ite (.fail _) (fin_len.bind fun k _ => (Fin.query (Q := fun _ => True) (fun s => cell_ne (k - 1) s.cells)
      fun _ _ _ _ => trivial).bind fun y _ => Fin.bind (Q := fun _ => True) (.same (.lift (uintValue_ne _)) fun _ => rfl)
      fun j _ => fin_repeat (fin_within (by intro _ _ _ _ _ e; cases e) hn) j)

theorem fin_assessment (hc : Unpacks F b c) {d : Desc} (hd : Fit b ⟨some d, false⟩) {x y z : M (Vis F) Unit}
    (hx : Fin b (fun _ => True) x) (hy : Fin b (fun _ => True) y) (hz : Fin b (fun _ => True) z) :
    Fin b (fun _ => True) (Vis.visitAssessment c d x y z) := by
  unfold Vis.visitAssessment
  refine Fin.bind (Q := fun _ => True) (.same (fun s => ?_) fun s => ?_) fun _ _ => (fin_zero hc hd).bind fun _ _ =>
    hx.bind fun _ _ => (fin_valuedNodes hy).bind fun _ _ => fin_initTargets.bind fun _ _ =>
    (fin_valuedNodes hz).bind fun _ _ => fin_attach _ _ _
  · unfold Vis.newAssessment
    split
    · split
      · exact fun h => nomatch h
      · exact fun h => nomatch h
      · exact fun h => nomatch h
      · next h => exact absurd h (len_ne _)
    · exact fun h => nomatch h
  · unfold Vis.newAssessment
    split
    · split <;> rfl
    · rfl

theorem fin_bitmap (hc : Unpacks F b c) {d : Option Desc} (hd : Fit b ⟨d, false⟩) {m : M (Vis F) Unit}
    (hm : Fin b (fun _ => True) m) : Fin b (fun _ => True) (Vis.visitBitmap c d m) := by
  unfold Vis.visitBitmap
  split
  · exact .crash _
  · refine (fin_zero hc hd).bind fun _ _ => Fin.ite (.modify _ fun _ => rfl) ?_
    refine Fin.bind (Q := fun _ => True) ?_ fun _ _ => hm.defer (.same (fun s => ?_) fun s => ?_)
    · exact fin_len.bind fun n _ => .modify _ fun _ => rfl
    · unfold Vis.endBitmap
      split <;> exact fun h => nomatch h
    · unfold Vis.endBitmap
      split <;> rfl

theorem fin_newRefval (hc : Unpacks F b c) {info : PackingInfo F} (hi : b → info.unit ≠ .binary) : ∀ ms : List Ast,
    (∀ m ∈ ms, Fit b ⟨m.descriptor, false⟩) → Fin b (fun _ => True) (Vis.newRefvalLoop c info ms)
  | [], _ => .pure trivial
  | m :: ms, h => by
    unfold Vis.newRefvalLoop
    refine (fin_build hc (h m List.mem_cons_self) hi).bind fun n _ => ?_
    split
    · exact .crash _
    · refine Fin.bind (Q := fun _ => True) (.same (fun s => ?_) fun s => ?_) fun _ _ =>
        fin_newRefval hc hi ms fun x hx => h x (List.mem_cons_of_mem _ hx)
      · split <;> exact fun h => nomatch h
      · split <;> rfl

/-- No node of the tree stands for opaque bits, if `b`. -/
def Plainly (b : Prop) (l : List Ast) : Prop := b → ∀ x ∈ l, ¬ Opaque x

theorem Plainly.mono {l l' : List Ast} (h : Plainly b l) (hl : ∀ x ∈ l', x ∈ l) : Plainly b l' :=
  fun hb x hx => h hb x (hl x hx)

theorem fit_of {t : Ast} (h : b → ¬ Opaque t) (k : Bool) : Fit b ⟨t.descriptor, k⟩ := by
  intro hb x e hx he hu
  refine h hb ?_
  cases t <;> first | trivial | exact ⟨x, e, hx, he, hu⟩

theorem self_mem_nodes (t : Ast) : t ∈ nodes t := by
  cases t <;> simp [nodes]

theorem nodes_mem_nodesL {t x : Ast} : ∀ {ts : List Ast}, t ∈ ts → x ∈ nodes t → x ∈ nodesL ts
  | a :: ts, h, hx => by
    unfold nodesL
    rcases List.mem_cons.1 h with rfl | h
    · exact List.mem_append_left _ hx
    · exact List.mem_append_right _ (nodes_mem_nodesL h hx)

mutual
theorem fin_visit (hc : Unpacks F b c) : (t : Ast) → noBase t = true → Plainly b (nodes t) →
    Fin b (fun _ => True) (Vis.visit c t : M (Vis F) Unit)
  | .base _ ms, hb, _ => by simp [noBase] at hb
  | .element d np, _, h => by
    have hf := fun k => fit_of (t := .element d np) (fun hb => h hb _ (self_mem_nodes _)) k
    unfold Vis.visit
    exact Fin.ite (fin_valueless _) ((fin_assoc hc (hf true)).bind fun as _ => (fin_buildNode hc (hf false)).bind fun n _ =>
      fin_addMembers n as)
  | .e031021 d, _, h => by
    have hf := fun k => fit_of (t := .e031021 d) (fun hb => h hb _ (self_mem_nodes _)) k
    unfold Vis.visit
    exact (fin_buildNode hc (hf false)).bind fun n _ => .modify _ fun _ => rfl
  | .fixedRepl d ms, hb, h => by
    unfold Vis.visit
    exact fin_within (by intro _ _ _ _ _ e; cases e) (fin_repeat (fin_within (by intro _ _ _ _ _ e; cases e)
      (fin_visitL hc ms (by simpa [noBase] using hb) (h.mono fun x hx => by simp [nodes, hx]))) _)
  | .delayedRepl d [], _, _ => by
    unfold Vis.visit
    exact fin_within (by intro _ _ _ _ _ e; cases e) (.crash _)
  | .delayedRepl d (m :: ms), hb, h => by
    unfold Vis.visit
    simp only [noBase, noBaseL, Bool.and_eq_true] at hb
    exact fin_within (by intro _ _ _ _ _ e; cases e) (fin_delayed (fin_visit hc m hb.1 (h.mono fun x hx => by simp [nodes, nodesL, hx]))
      (fin_visitL hc ms hb.2 (h.mono fun x hx => by simp [nodes, nodesL, hx])))
  | .sequence d ms, hb, h => by
    unfold Vis.visit
    exact fin_within (by intro _ _ _ _ _ e; cases e)
      (fin_visitL hc ms (by simpa [noBase] using hb) (h.mono fun x hx => by simp [nodes, hx]))
  | .nbitsOffset d, _, _ => by
    unfold Vis.visit
    exact (fin_valueless _).bind fun _ _ => .modify _ fun _ => rfl
  | .scaleOffset d, _, _ => by
    unfold Vis.visit
    exact (fin_valueless _).bind fun _ _ => .modify _ fun _ => rfl
  | .newRefval d ms, _, h => by
    unfold Vis.visit
    refine (fin_valueless _).bind fun _ _ => Fin.ite (fin_newRefval hc (by intro _ e; cases e) ms fun m hm => ?_) (.pure trivial)
    exact fit_of (fun hb => h hb _ (by simp [nodes, nodes_mem_nodesL hm (self_mem_nodes m)])) _
  | .assocField d ms, hb, h => by
    unfold Vis.visit
    have hms := fin_visitL hc ms (by simpa [noBase] using hb) (h.mono fun x hx => by simp [nodes, hx])
    refine (fin_valueless _).bind fun _ _ => Fin.ite (Fin.bind (Q := fun _ => True) (.same (fun s => ?_) fun s => ?_) fun _ _ => hms)
      (Fin.bind (Q := fun _ => True) (.modify _ fun _ => rfl) fun _ _ => hms)
    · unfold Vis.assocPop; split <;> exact fun h => nomatch h
    · unfold Vis.assocPop; split <;> rfl
  | .insertString d, _, h => by
    have hf := fun k => fit_of (t := .insertString d) (fun hb => h hb _ (self_mem_nodes _)) k
    unfold Vis.visit
    exact (fin_build hc (hf false) (by intro _ e; cases e)).bind fun _ _ => .pure trivial
  | .skipLocal d [], _, _ => by
    unfold Vis.visit
    exact (fin_valueless _).bind fun _ _ => .crash _
  | .skipLocal d (m :: ms), _, h => by
    have no : ¬ b := fun hb => h hb _ (self_mem_nodes _) trivial
    unfold Vis.visit
    exact (fin_valueless _).bind fun _ _ => (fin_build hc (fun hb => absurd hb no) fun hb => absurd hb no).bind
      fun _ _ => .pure trivial
  | .modifyPacking d, _, _ => by
    unfold Vis.visit
    exact (fin_valueless _).bind fun _ _ => Fin.ite (.modify _ fun _ => rfl) (.modify _ fun _ => rfl)
  | .setStringLength d, _, _ => by
    unfold Vis.visit
    exact (fin_valueless _).bind fun _ _ => .modify _ fun _ => rfl
  | .dataNotPresent d ms, hb, h => by
    unfold Vis.visit
    exact (fin_valueless _).bind fun _ _ => fin_visitL hc ms (by simpa [noBase] using hb) (h.mono fun x hx => by simp [nodes, hx])
  | .assessment d bm as ms, hb, h => by
    have hf := fun k => fit_of (t := .assessment d bm as ms) (fun hb => h hb _ (self_mem_nodes _)) k
    unfold Vis.visit
    simp only [noBase, Bool.and_eq_true] at hb
    exact fin_assessment hc (hf false) (fin_visit hc bm hb.1.1 (h.mono fun x hx => by simp [nodes, hx]))
      (fin_visitL hc as hb.1.2 (h.mono fun x hx => by simp [nodes, hx])) (fin_visitL hc ms hb.2 (h.mono fun x hx => by simp [nodes, hx]))
  | .marker d, _, h => by
    have hf := fun k => fit_of (t := .marker d) (fun hb => h hb _ (self_mem_nodes _)) k
    unfold Vis.visit
    exact fin_marker hc (hf false)
  | .cancelBackRef d, _, _ => by
    unfold Vis.visit Vis.cancelBackref Vis.cancelBitmap
    exact Fin.bind (Q := fun _ => True) (.modify _ fun _ => rfl) fun _ _ => .modify _ fun _ => rfl
  | .cancelBitmap d, _, _ => by
    unfold Vis.visit Vis.cancelBitmap
    exact .modify _ fun _ => rfl
  | .bitmap d ms, hb, h => by
    have hf := fun k => fit_of (t := .bitmap d ms) (fun hb => h hb _ (self_mem_nodes _)) k
    unfold Vis.visit
    exact fin_bitmap hc (hf false) (fin_visitL hc ms (by simpa [noBase] using hb) (h.mono fun x hx => by simp [nodes, hx]))
theorem fin_visitL (hc : Unpacks F b c) : (ts : List Ast) → noBaseL ts = true → Plainly b (nodesL ts) →
    Fin b (fun _ => True) (Vis.visitL c ts : M (Vis F) Unit)
  | [], _, _ => by unfold Vis.visitL; exact .pure trivial
  | t :: ts, hb, h => by
    unfold Vis.visitL
    simp only [noBaseL, Bool.and_eq_true] at hb
    exact (fin_visit hc t hb.1 (h.mono fun x hx => by simp [nodesL, hx])).bind fun _ _ =>
      fin_visitL hc ts hb.2 (h.mono fun x hx => by simp [nodesL, hx])
end

theorem fin_root (hc : Unpacks F b c) (d : Desc) {ns : List Ast} (hb : noBaseL ns = true) (h : Plainly b (nodesL ns)) :
    Fin b (fun _ => True) (Vis.visit c (.base d ns) : M (Vis F) Unit) := by
  unfold Vis.visit
  refine Fin.bind (Q := fun _ => True) (fun s hs => ?_) fun _ _ => fin_visitL hc ns hb h
  unfold Vis.reset
  split
  · exact ⟨fun h => (nomatch h), hs, fun _ _ => trivial⟩
  · refine ⟨fun h => (nomatch h), ?_, fun _ _ => trivial⟩
    intro x hx td i info mv nd e
    cases List.mem_singleton.1 hx
    cases e

theorem fin_subsets (hc : Unpacks F b c) (d : Desc) {ns : List Ast} (hb : noBaseL ns = true) (h : Plainly b (nodesL ns)) :
    ∀ (k : Nat) (p : Payload F), Fin b (fun _ => True) (Vis.decodeSubsets c (.base d ns) k p)
  | 0, _ => .pure trivial
  | k + 1, p => by
    unfold Vis.decodeSubsets
    refine (fin_root hc d hb h).bind fun _ _ => Fin.bind (Q := fun _ => True) ?_ fun p _ => fin_subsets hc d hb h k p
    refine Fin.bind (Q := fun _ => True) (.same (fun s => ?_) fun s => ?_) fun root _ => .query (fun _ h => (nomatch h)) fun _ _ _ _ => trivial
    · unfold Vis.treeRoot; split <;> exact fun h => nomatch h
    · unfold Vis.treeRoot; split <;> rfl

/-! ## The visitor does not depend on the fuel -/

/-- Configurations that unpack the same. -/
structure Alike (F : Type) [GoFloat F] (c c' : VisCfg) : Prop where
  compressed : c.compressed = c'.compressed
  inputType : c.inputType = c'.inputType
  compatible : c.compatible = c'.compatible
  nsubsets : c.nsubsets = c'.nsubsets
  unpack : ∀ info : PackingInfo F, c.unpacker.unpack info = c'.unpacker.unpack info

variable {c' : VisCfg}

theorem alike_build (h : Alike F c c') : (Vis.buildValuedNodeWithInfo c : NodeDesc → PackingInfo F → _) =
    Vis.buildValuedNodeWithInfo c' := by
  funext d info
  unfold Vis.buildValuedNodeWithInfo Vis.unpack
  rw [h.unpack]

theorem alike_buildNode (h : Alike F c c') : (Vis.buildValuedNode c : NodeDesc → M (Vis F) NodeId) = Vis.buildValuedNode c' := by
  funext d
  unfold Vis.buildValuedNode
  rw [alike_build h]

theorem alike_assocLoop (h : Alike F c c') (d : Desc) : ∀ ps, (Vis.assocLoop c d ps : M (Vis F) _) = Vis.assocLoop c' d ps
  | [] => rfl
  | p :: ps => by
    unfold Vis.assocLoop
    rw [alike_build h, alike_assocLoop h d ps]

theorem alike_assoc (h : Alike F c c') (d : Desc) : (Vis.buildAssocNodes c d : M (Vis F) _) = Vis.buildAssocNodes c' d := by
  funext s
  unfold Vis.buildAssocNodes
  rw [alike_assocLoop h]

theorem alike_zero (h : Alike F c c') (d : Option Desc) : (Vis.buildZeroNode c d : M (Vis F) _) = Vis.buildZeroNode c' d := by
  unfold Vis.buildZeroNode
  rw [alike_build h, h.compatible]

theorem alike_newRefval (h : Alike F c c') (info : PackingInfo F) : ∀ ms, Vis.newRefvalLoop c info ms = Vis.newRefvalLoop c' info ms
  | [] => rfl
  | m :: ms => by
    unfold Vis.newRefvalLoop
    rw [alike_build h, alike_newRefval h info ms]

mutual
theorem alike_visit (h : Alike F c c') : ∀ t : Ast, (Vis.visit c t : M (Vis F) Unit) = Vis.visit c' t
  | .base _ ms => by
    unfold Vis.visit
    rw [alike_visitL h ms]
    unfold Vis.reset
    rw [h.compressed, h.inputType, h.nsubsets]
  | .element d np => by unfold Vis.visit; rw [alike_assoc h, alike_buildNode h]
  | .e031021 d => by unfold Vis.visit; rw [alike_buildNode h]
  | .fixedRepl d ms => by unfold Vis.visit; rw [alike_visitL h ms]
  | .delayedRepl d [] => by unfold Vis.visit; rfl
  | .delayedRepl d (m :: ms) => by unfold Vis.visit; dsimp only; rw [alike_visit h m, alike_visitL h ms]
  | .sequence d ms => by unfold Vis.visit; rw [alike_visitL h ms]
  | .nbitsOffset d => by unfold Vis.visit; rfl
  | .scaleOffset d => by unfold Vis.visit; rfl
  | .newRefval d ms => by unfold Vis.visit; rw [alike_newRefval h]
  | .assocField d ms => by unfold Vis.visit; rw [alike_visitL h ms]
  | .insertString d => by unfold Vis.visit; rw [alike_build h]
  | .skipLocal d ms => by unfold Vis.visit; rw [alike_build h]
  | .modifyPacking d => by unfold Vis.visit; rfl
  | .setStringLength d => by unfold Vis.visit; rfl
  | .dataNotPresent d ms => by unfold Vis.visit; rw [alike_visitL h ms]
  | .assessment d bm as ms => by
    unfold Vis.visit Vis.visitAssessment
    rw [alike_zero h, alike_visit h bm, alike_visitL h as, alike_visitL h ms]
  | .marker d => by unfold Vis.visit Vis.visitMarker; rw [alike_build h]
  | .cancelBackRef d => by unfold Vis.visit; rfl
  | .cancelBitmap d => by unfold Vis.visit; rfl
  | .bitmap d ms => by
    unfold Vis.visit Vis.visitBitmap
    rw [alike_visitL h ms]
    cases d with
    | none => rfl
    | some d => dsimp only; rw [alike_zero h]
theorem alike_visitL (h : Alike F c c') : ∀ ts : List Ast, (Vis.visitL c ts : M (Vis F) Unit) = Vis.visitL c' ts
  | [] => by unfold Vis.visitL; rfl
  | t :: ts => by unfold Vis.visitL; rw [alike_visit h t, alike_visitL h ts]
end

theorem alike_subsets (h : Alike F c c') (t : Ast) : ∀ (k : Nat) (p : Payload F),
    Vis.decodeSubsets c t k p = Vis.decodeSubsets c' t k p
  | 0, _ => rfl
  | k + 1, p => by
    unfold Vis.decodeSubsets
    rw [alike_visit h t]
    congr 1
    funext _
    congr 1
    funext p
    exact alike_subsets h t k p

/-- Configurations that differ at most in the fuel. -/
def SameFuel (c c' : FacCfg) : Prop := c' = { c with fuel := c'.fuel }

theorem payload_fuel {c c' : FacCfg} (hc : SameFuel c c') (t : Ast) (n : Int) (x : Bool) :
    (Fac.decodePayload c t n x : M (Fac F) (Payload F)) = Fac.decodePayload c' t n x := by
  unfold Fac.decodePayload
  have hi : c'.inputType = c.inputType := by rw [hc]
  have hk : c'.compatible = c.compatible := by rw [hc]
  rw [hi, hk]
  funext s
  unfold newDeserializeVisitor newUnpacker
  cases c.inputType with
  | flatText => rfl
  | flatJson => rfl
  | binary =>
    cases x with
    | false => rfl
    | true =>
      dsimp only
      rw [if_pos rfl, if_pos rfl]
      have ha : Alike F ⟨true, .binary, c.compatible, n, .compressed n c.fuel⟩ ⟨true, .binary, c.compatible, n, .compressed n c'.fuel⟩ :=
        ⟨rfl, rfl, rfl, rfl, fun info => by
          show (compressedUnpack n c.fuel info >>= _) = (compressedUnpack n c'.fuel info >>= _)
          rw [compressed_fuel n c.fuel c'.fuel]⟩
      have e := alike_subsets ha t (if true = true ∧ InputType.binary = InputType.binary then 1 else n).toNat { compressed := true }
      exact congrArg (fun m => M.zoom (fun s : Fac F => Fac.freshVis s.r) (fun v s => { s with r := v.r }) m s) e

/-! ## The factory and the scripts -/

omit [GoFloat F] in
theorem live_message : Live (Fac.theMessage : M (Fac F) (Message F)) := by
  intro s
  unfold Fac.theMessage
  split <;> exact fun h => nomatch h

omit [GoFloat F] in
theorem live_changeSection (g : Section F → Section F) : Live (Fac.changeSection g : M (Fac F) Unit) := by
  intro s
  unfold Fac.changeSection
  split <;> exact fun h => nomatch h

omit [GoFloat F] in
theorem live_setProxy (f : Field F) : Live (Fac.setProxyField f : M (Fac F) Unit) := by
  intro s
  unfold Fac.setProxyField
  split <;> exact fun h => nomatch h

omit [GoFloat F] in
theorem live_newSection (n : Int) (d : GoString) : Live (Fac.newSection n d : M (Fac F) Unit) :=
  live_message.bind fun _ => (Live.modify _).bind fun _ => (Live.gets _).bind fun _ => live_changeSection _

omit [GoFloat F] in
theorem live_bitsLeft (n : Nat) : Live (Fac.bitsLeft n : M (Fac F) Int) := by
  refine Live.bind (fun s => ?_) fun _ => .gets _
  unfold Fac.theSection
  split <;> exact fun h => nomatch h

omit [GoFloat F] in
theorem live_padding (n : Nat) : Live (Fac.padding n : M (Fac F) (Option (Field F))) := by
  unfold Fac.padding
  refine (live_bitsLeft n).bind fun k => Live.ite (.pure _) (Live.ite (.fail _) ((live_changeSection _).bind fun _ =>
    ((live_readBinary _).zoom.wrap _).bind fun x => ?_))
  cases x with
  | none => exact .crash _
  | some y => exact (live_changeSection _).bind fun _ => .pure _

theorem live_readValue {t : DataType} (h : t ≠ DataType.FLOAT) (n : Int) : Live (Fac.readValue t n : M (Reader F) (Val F)) := by
  unfold Fac.readValue
  rw [if_neg h]
  exact Live.ite ((live_readUint _).bind fun _ => .pure _) <| Live.ite ((live_readInt _).bind fun _ => .pure _) <|
    Live.ite (live_readBool.bind fun _ => .pure _) <| Live.ite ((live_readBytes _).bind fun _ => .pure _) <|
    Live.ite ((live_readBinary _).bind fun _ => .pure _) (.fail _)

theorem live_field {d : FieldDecl} (h : d.dataType ≠ DataType.FLOAT) : Live (Script.newField d : M (Fac F) (Field F)) := by
  unfold Script.newField Fac.newField
  refine Live.wrap ((live_readValue h _).zoom.bind fun v => (live_changeSection _).bind fun _ => ?_) _
  exact Live.ite ((live_setProxy _).bind fun _ => .pure _) (.pure _)

theorem live_fields : ∀ {ds : List FieldDecl}, (∀ d ∈ ds, d.dataType ≠ DataType.FLOAT) → Live (Script.newFields ds : M (Fac F) Unit)
  | [], _ => .pure _
  | d :: _, h => (live_field (h d List.mem_cons_self)).bind fun _ => live_fields fun x hx => h x (List.mem_cons_of_mem _ hx)

omit [GoFloat F] in
theorem luaValue_ne (f : Field F) : f.luaValue ≠ .diverge := by
  unfold Field.luaValue
  split <;> exact fun h => nomatch h

omit [GoFloat F] in
theorem proxyField_ne (m : Message F) (n : GoString) : m.proxyField n ≠ .diverge := by
  unfold Message.proxyField
  split <;> exact fun h => nomatch h

omit [GoFloat F] in
theorem live_value (f : Field F) : Live (Script.value f : M (Fac F) (LuaVal F)) := .lift (wrapO_ne (luaValue_ne f))

omit [GoFloat F] in
theorem live_proxyValue (n : String) : Live (Script.proxyValue n : M (Fac F) (LuaVal F)) :=
  live_message.bind fun _ => (Live.lift (wrapO_ne (proxyField_ne _ _))).bind fun _ => live_value _

omit [GoFloat F] in
theorem live_scriptPadding (v : LuaVal F) : Live (Script.padding v : M (Fac F) Unit) :=
  ((live_padding _).wrap _).bind fun _ => .pure _

omit [GoFloat F] in
theorem number_ne (v : LuaVal F) : v.number ≠ .diverge := by
  cases v <;> exact fun h => nomatch h

theorem live_section0 : Live (Script.section0 : M (Fac F) Unit) :=
  (live_newSection _ _).bind fun _ => live_fields (by decide)

theorem live_section1 {ds : List FieldDecl} (h : ∀ d ∈ ds, d.dataType ≠ DataType.FLOAT) : Live (Script.section1 ds : M (Fac F) Unit) :=
  (live_newSection _ _).bind fun _ => (live_field (by decide)).bind fun _ => (live_fields h).bind fun _ =>
    (live_value _).bind fun _ => live_scriptPadding _

theorem live_optional : Live (Script.optionalSection2 : M (Fac F) Unit) := by
  unfold Script.optionalSection2 Script.section2
  refine (live_proxyValue _).bind fun v => Live.ite ?_ (.pure _)
  exact (live_newSection _ _).bind fun _ => (live_field (by decide)).bind fun _ => (live_field (by decide)).bind fun _ =>
    (live_value _).bind fun _ => (Live.lift (number_ne _)).bind fun _ =>
    (live_field (show DataType.BINARY ≠ DataType.FLOAT by decide)).bind fun _ => .pure _

theorem live_readIds (a b c : Int) : ∀ k, Live (Fac.readIds a b c k : M (Reader F) (List ID))
  | 0 => .pure _
  | k + 1 => ((live_readUint _).bind fun _ => (live_readUint _).bind fun _ => (live_readUint _).bind fun _ => .pure _).bind
      fun _ => (live_readIds a b c k).bind fun _ => .pure _

theorem live_section3 : Live (Script.section3 : M (Fac F) Unit) := by
  unfold Script.section3
  refine (live_newSection _ _).bind fun _ => (live_field (by decide)).bind fun _ => (live_fields (by decide)).bind fun _ =>
    (live_value _).bind fun _ => Live.bind (Live.wrap ?_ _) fun _ => (live_value _).bind fun _ => live_scriptPadding _
  unfold Fac.newTemplateField
  exact (live_bitsLeft _).bind fun _ => Live.ite (.crash _) (Live.ite (.crash _) ((live_readIds _ _ _ _).zoom.bind fun _ =>
    (Live.modify _).bind fun _ => (live_changeSection _).bind fun _ => (live_setProxy _).bind fun _ => .pure _))

theorem live_section5 : Live (Script.section5 : M (Fac F) Unit) :=
  (live_newSection _ _).bind fun _ => live_fields (by decide)

theorem live_add {t : Tables} (h : Loading t) (n : TableNum) : Live (addSingleTableGroup t n) := by
  unfold addSingleTableGroup
  refine Live.bind (.lift ?_) fun _ => .modify _
  unfold newSingleTableGroup
  exact obind_ne (h.b n) fun _ => obind_ne (h.d n) fun _ h => nomatch h

theorem live_groups {t : Tables} (h : Loading t) (a b c d e : Int) : Live (addLocalAndWmoTableGroups t a b c d e) := by
  unfold addLocalAndWmoTableGroups
  split
  · intro g
    have := live_add h ⟨a, b, c, e⟩ g
    rcases hx : addSingleTableGroup t ⟨a, b, c, e⟩ g with ⟨o, p⟩
    rw [hx] at this
    rw [M.handle_eq hx]
    cases o with
    | diverge => exact absurd rfl this
    | panic w => exact fun h => nomatch h
    | ok _ => exact live_add h _ _
    | err e =>
      dsimp only
      split
      · exact Live.bind (live_add h _) (fun _ => live_add h _) _
      · exact fun h => nomatch h
  · exact live_add h _

omit [GoFloat F] in
theorem live_tables {c : FacCfg} (h : Loading c.tables) (i1 i2 i3 i4 i5 : Int) :
    Live (Fac.initTableGroup c i1 i2 i3 i4 i5 : M (Fac F) Unit) := by
  intro s
  unfold Fac.initTableGroup
  have := live_groups h i1 i2 i3 i4 i5 ⟨[]⟩
  split
  · exact fun h => nomatch h
  · exact fun h => nomatch h
  · exact fun h => nomatch h
  · next h => rw [h] at this; exact absurd rfl this

/-! ## Where decoding does not end -/

/-- With enough fuel the call ends, or in a state as `H` says. -/
def Fate (H : Fac F → Prop) (s : Fac F) (m : Nat → M (Fac F) α) : Prop :=
  ∃ N, ∀ n, N ≤ n → (m n s).1 = .diverge → H (m n s).2

omit [GoFloat F] in
theorem Fate.live {H : Fac F → Prop} {s : Fac F} {m : Nat → M (Fac F) α} (h : ∀ n, Live (m n)) : Fate H s m :=
  ⟨0, fun n _ e => absurd e (h n s)⟩

omit [GoFloat F] in
theorem Fate.bind {H : Fac F → Prop} {s : Fac F} {m : M (Fac F) α} {f : Nat → α → M (Fac F) β} (hm : Live m)
    (hf : ∀ a p, m s = (.ok a, p) → Fate H p fun n => f n a) : Fate H s fun n => m >>= f n := by
  have := hm s
  rcases hx : m s with ⟨o, p⟩
  rw [hx] at this
  cases o with
  | ok a =>
    obtain ⟨N, h⟩ := hf a p hx
    refine ⟨N, fun n hn => ?_⟩
    dsimp only
    rw [M.bind_ok hx]
    exact h n hn
  | err e =>
    refine ⟨0, fun n _ => ?_⟩
    dsimp only
    rw [M.bind_err hx]
    exact fun h => nomatch h
  | panic w =>
    refine ⟨0, fun n _ => ?_⟩
    dsimp only
    rw [M.bind_panic hx]
    exact fun h => nomatch h
  | diverge => exact absurd rfl this

omit [GoFloat F] in
theorem Fate.after {H : Fac F → Prop} {s : Fac F} {m : Nat → M (Fac F) α} {f : Nat → α → M (Fac F) β}
    (hm : Fate H s m) (hf : ∀ n a, Live (f n a)) : Fate H s fun n => m n >>= f n := by
  obtain ⟨N, h⟩ := hm
  refine ⟨N, fun n hn e => ?_⟩
  have := h n hn
  dsimp only at e
  rcases hx : m n s with ⟨o, p⟩
  rw [hx] at this
  cases o with
  | ok a => rw [M.bind_ok hx] at e; exact absurd e (hf n a p)
  | err y => rw [M.bind_err hx] at e; cases e
  | panic w => rw [M.bind_panic hx] at e; cases e
  | diverge => dsimp only; rw [M.bind_diverge hx]; exact this rfl

omit [GoFloat F] in
theorem Fate.wrap {H : Fac F → Prop} {s : Fac F} {m : Nat → M (Fac F) α} (hm : Fate H s m) (w : String) :
    Fate H s fun n => M.wrapErr w (m n) := by
  obtain ⟨N, h⟩ := hm
  refine ⟨N, fun n hn => ?_⟩
  have := h n hn
  dsimp only
  unfold M.wrapErr
  rcases hx : m n s with ⟨o, p⟩
  rw [hx] at this
  cases o with
  | diverge => exact this
  | ok a => exact fun e => nomatch e
  | err a => exact fun e => nomatch e
  | panic a => exact fun e => nomatch e

/-- The configuration with other fuel. -/
abbrev fueled (c : FacCfg) (n : Nat) : FacCfg := { c with fuel := n }

/-- The state in which decoding stopped: the data are in the binary form, compressed, and of a template with opaque bits. -/
def Stuck (c : FacCfg) (s : Fac F) : Prop := c.inputType = .binary ∧ Compressed s ∧ HasOpaque s

/-- The payload of a parsed template. -/
theorem payload_stuck {c : FacCfg} {ns : List Ast} (hb : noBaseL ns = true) {nsubsets : Int} {x : Bool} {s : Fac F}
    (e : (Fac.decodePayload c (.base rootDescriptor ns) nsubsets x s).1 = .diverge) :
    c.inputType = .binary ∧ x = true ∧ ∃ y ∈ nodes (.base rootDescriptor ns), Opaque y := by
  by_contra hcon
  revert e
  unfold Fac.decodePayload
  rcases hv : newDeserializeVisitor c.fuel x c.inputType c.compatible nsubsets with vc | e | w | _
  · have hu : Packs vc.unpacker → c.inputType = .binary ∧ x = true := by
      unfold newDeserializeVisitor newUnpacker at hv
      cases hi : c.inputType with
      | binary =>
        cases x with
        | true => exact fun _ => ⟨rfl, rfl⟩
        | false => rw [hi] at hv; cases hv; exact fun h => h.elim
      | flatJson => rw [hi] at hv; cases hv; exact fun h => h.elim
      | flatText => rw [hi] at hv; cases hv
    have hp : Plainly (Packs vc.unpacker) (nodesL ns) := fun h y hy ho =>
      hcon ⟨(hu h).1, (hu h).2, y, by simp only [nodes, List.mem_cons]; exact .inr hy, ho⟩
    have := (fin_subsets (F := F) (b := Packs vc.unpacker) (c := vc) (fun info h => live_unpack _ info h) rootDescriptor hb hp
      (if x = true ∧ c.inputType = .binary then 1 else nsubsets).toNat { compressed := x } (Fac.freshVis s.r)
      (fun y hy => by cases hy)).1
    exact this
  · exact fun h => nomatch h
  · exact fun h => nomatch h
  · unfold newDeserializeVisitor newUnpacker at hv
    cases hi : c.inputType <;> cases x <;> rw [hi] at hv <;> cases hv

theorem payload_message (c : FacCfg) (t : Ast) (nsubsets : Int) (x : Bool) (s : Fac F) :
    (Fac.decodePayload c t nsubsets x s).2.message = s.message := by
  unfold Fac.decodePayload
  cases newDeserializeVisitor c.fuel x c.inputType c.compatible nsubsets <;> rfl

theorem fate_payload {c : FacCfg} {g : ChainGroup} (ha : TemplateSpec.Acyclic g.lookup) (name : GoString) (nsubsets : Int)
    {x : Bool} {s : Fac F} (hg : s.tableGroup = some g) (hx : x = true → Compressed s) :
    Fate (Stuck c) s fun n => (Fac.newPayloadField (fueled c n) name nsubsets x : M (Fac F) (Field F)) := by
  have hl : Fac.lookup s = g.lookup := by unfold Fac.lookup; rw [hg]
  unfold Fac.newPayloadField
  refine Fate.bind (.gets _) fun a p hp => ?_
  obtain rfl : p = s := by cases hp; rfl
  cases hu : p.ut with
  | none =>
    refine ⟨0, fun n _ => ?_⟩
    have : (Fac.parseTemplate (fueled c n) : M (Fac F) Ast) p = (.panic "nil pointer dereference", p) := by
      unfold Fac.parseTemplate; rw [hu]
    dsimp only
    rw [M.bind_panic this]
    exact fun h => nomatch h
  | some u =>
    obtain ⟨r, hr, N, hN⟩ := C32_parse_terminates g.lookup (good_chain g) ha u.ids
    refine ⟨N, fun n hn => ?_⟩
    have hq : (Fac.parseTemplate (fueled c n) : M (Fac F) Ast) p = (Outcome.wrapErr "cannot parse template" r, p) := by
      unfold Fac.parseTemplate; rw [hu]; dsimp only; rw [hl, hN n hn]
    dsimp only
    cases r with
    | diverge => exact absurd rfl hr
    | err e => rw [M.bind_err hq]; exact fun h => nomatch h
    | panic w => rw [M.bind_panic hq]; exact fun h => nomatch h
    | ok t =>
      obtain ⟨ns, rfl⟩ : ∃ ns, t = .base rootDescriptor ns := by
        obtain ⟨s', ns, h, -⟩ := parse_ok_iff.1 (hN n hn)
        exact ⟨_, h⟩
      rw [M.bind_ok hq]
      have e2 : Fac.verboseDump (fueled c n) (.base rootDescriptor ns) p = (.ok (), p) := by
        unfold Fac.verboseDump
        split
        · have := C78_dump _ (C78_parse_trees _ (good_chain g) _ _ ⟨n, hN n hn⟩) 0 []
          simp only [Nat.mul_zero, List.replicate_zero] at this
          rw [this]
          rfl
        · rfl
      rw [M.bind_ok e2]
      have hb := parse_noBase (good_chain g) ⟨n, hN n hn⟩
      intro e
      rcases hy : (Fac.decodePayload (fueled c n) (.base rootDescriptor ns) nsubsets x : M (Fac F) (Payload F)) p with ⟨o, q⟩
      cases o with
      | err e' => rw [M.bind_err hy] at e; cases e
      | panic w => rw [M.bind_panic hy] at e; cases e
      | ok pay =>
        rw [M.bind_ok hy] at e
        exact absurd e (Live.bind (.gets _) (fun _ => (live_changeSection _).bind fun _ => (live_setProxy _).bind fun _ => .pure _) _)
      | diverge =>
        rw [M.bind_diverge hy]
        obtain ⟨h1, h2, y, h3, h4⟩ := payload_stuck (s := p) hb (by rw [hy])
        obtain ⟨-, -, -, k4, k5⟩ := plain_payload (fueled c n) (.base rootDescriptor ns) nsubsets x p p rfl rfl
        have k3 := payload_message (fueled c n) (.base rootDescriptor ns) nsubsets x p
        rw [hy] at k3 k4 k5
        dsimp only at k3 k4 k5
        refine ⟨h1, ?_, u, g, n, _, k4.trans hu, k5.trans hg, hN n hn, y, h3, h4⟩
        obtain ⟨m, f, v, q1, q2⟩ := hx h2
        exact ⟨m, f, v, k3.trans q1, q2⟩

omit [GoFloat F] in
theorem proxyValue_ok {name : String} {s p : Fac F} {v : LuaVal F} (h : Script.proxyValue name s = (.ok v, p)) :
    p = s ∧ ∃ m f, s.message = some m ∧ m.proxyField (str name) = .ok f ∧ f.luaValue = .ok v := by
  unfold Script.proxyValue at h
  obtain ⟨m, q, h1, h0⟩ := M.bind_eq_ok.1 h
  clear h
  have hm : s.message = some m ∧ q = s := by
    unfold Fac.theMessage at h1
    split at h1
    · next m' hm => cases h1; exact ⟨hm, rfl⟩
    · cases h1
  obtain ⟨hm, rfl⟩ := hm
  obtain ⟨f, q', h2, h⟩ := M.bind_eq_ok.1 h0
  clear h0
  have hf : m.proxyField (str name) = .ok f ∧ q' = q := by
    have := congrArg Prod.fst h2
    have e := congrArg Prod.snd h2
    refine ⟨?_, e.symm⟩
    change Outcome.wrapErr _ _ = _ at this
    cases hp : m.proxyField (str name) <;> rw [hp] at this <;> cases this
    rfl
  obtain ⟨hf, rfl⟩ := hf
  have := congrArg Prod.fst h
  have e := congrArg Prod.snd h
  refine ⟨e.symm, m, f, hm, hf, ?_⟩
  change Outcome.wrapErr _ _ = _ at this
  cases hp : f.luaValue <;> rw [hp] at this <;> cases this
  rfl

omit [GoFloat F] in
theorem keep {m : M (Fac F) α} (h : Plain m) {s p : Fac F} {a : α} (e : m s = (.ok a, p)) : p.tableGroup = s.tableGroup := by
  have := (h s s rfl rfl).2.2.2.2
  rw [e] at this
  exact this

theorem fate_section4 {c : FacCfg} {g : ChainGroup} (ha : TemplateSpec.Acyclic g.lookup) {s : Fac F}
    (hg : s.tableGroup = some g) : Fate (Stuck c) s fun n => (Script.section4 (fueled c n) : M (Fac F) Unit) := by
  unfold Script.section4
  refine Fate.bind (live_newSection _ _) fun _ s1 e1 => Fate.bind (live_field (by decide)) fun _ s2 e2 =>
    Fate.bind (live_field (by decide)) fun _ s3 e3 => Fate.bind (live_proxyValue _) fun k s4 e4 =>
    Fate.bind (live_proxyValue _) fun v s5 e5 => Fate.after (Fate.wrap (fate_payload ha _ _ ?_ ?_) _) fun n _ =>
    (live_value _).bind fun _ => live_scriptPadding _
  · obtain ⟨rfl, -⟩ := proxyValue_ok e4
    obtain ⟨rfl, -⟩ := proxyValue_ok e5
    rw [keep (plain_field _) e3, keep (plain_field _) e2, keep (plain_newSection _ _) e1, hg]
  · intro hv
    obtain ⟨rfl, m, f, h1, h2, h3⟩ := proxyValue_ok e5
    exact ⟨m, f, v, h1, h2, h3, hv⟩

omit [GoFloat F] in
theorem tables_ok {c : FacCfg} {s p : Fac F} {i1 i2 i3 i4 i5 : Int}
    (h : raise (Fac.initTableGroup c i1 i2 i3 i4 i5) s = (.ok (), p)) :
    ∃ g, addLocalAndWmoTableGroups c.tables i1 i2 i3 i4 i5 ⟨[]⟩ = (.ok (), g) ∧ p = { s with tableGroup := some g } := by
  unfold raise M.wrapErr Fac.initTableGroup at h
  rcases hx : addLocalAndWmoTableGroups c.tables i1 i2 i3 i4 i5 ⟨[]⟩ with ⟨o, g⟩
  rw [hx] at h
  cases o with
  | ok u => cases h; exact ⟨g, rfl, rfl⟩
  | err e => cases h
  | panic w => cases h
  | diverge => cases h

theorem fate_deserialise {c : FacCfg} (hl : Loading c.tables) (hc : NoCycles c.tables) {ds : List FieldDecl}
    (hd : ∀ d ∈ ds, d.dataType ≠ DataType.FLOAT) (s : Fac F) :
    Fate (Stuck c) s fun n => (Script.deserialise (fueled c n) ds : M (Fac F) (Message F)) := by
  unfold Script.deserialise
  refine Fate.bind (m := Fac.newMessage []) (Live.bind (.modify _) fun _ => .pure _) fun _ _ _ => Fate.bind live_section0 fun _ _ _ => Fate.bind (live_section1 hd) fun _ _ _ =>
    Fate.bind live_optional fun _ _ _ => Fate.bind live_section3 fun _ _ _ => ?_
  · show Fate _ _ fun n => Script.initTableGroup c >>= _
    unfold Script.initTableGroup
    simp only [M.bind_assoc]
    refine Fate.bind (live_proxyValue _) fun _ _ _ => Fate.bind (live_proxyValue _) fun _ _ _ =>
      Fate.bind (live_proxyValue _) fun _ _ _ => Fate.bind (live_proxyValue _) fun _ _ _ =>
      Fate.bind (live_proxyValue _) fun _ _ _ => Fate.bind ((live_tables hl _ _ _ _ _).wrap _) fun _ p e => ?_
    obtain ⟨g, h1, rfl⟩ := tables_ok e
    exact Fate.after (fate_section4 (hc _ _ _ _ _ g h1) rfl) fun _ _ => live_section5.bind fun _ => live_message

theorem fate_run {c : FacCfg} (hl : Loading c.tables) (hc : NoCycles c.tables) (s : Fac F) :
    Fate (Stuck c) s fun n => (Runtime.run (fueled c n) : M (Fac F) (Message F)) := by
  unfold Runtime.run Script.boot
  refine Fate.bind (fun s => (C68_terminates s 0).1) fun _ _ _ =>
    Fate.bind (m := raise Fac.peekEditionNumber) (Live.wrap (m := Fac.peekEditionNumber) (fun s => live_peekUint 7 8 s.r) _)
      fun k p _ => ?_
  by_cases h4 : k = 4
  · simp only [if_pos h4]
    exact fate_deserialise hl hc (by decide) p
  · by_cases h3 : k = 3
    · simp only [if_neg h4, if_pos h3]
      exact fate_deserialise hl hc (by decide) p
    · simp only [if_neg h4, if_neg h3]
      exact Fate.live fun _ => .fail _

/-! ## Fuel -/

/-- If the first call ends, or stops where `H` says that it does not for want of fuel, then the second does the same. -/
def Steady (H : Fac F → Prop) (s : Fac F) (m m' : M (Fac F) α) : Prop :=
  ((m s).1 ≠ .diverge ∨ H (m s).2) → m s = m' s

omit [GoFloat F] in
theorem Steady.bind {H : Fac F → Prop} {s : Fac F} {m : M (Fac F) α} {f f' : α → M (Fac F) β}
    (h : ∀ a p, m s = (.ok a, p) → Steady H p (f a) (f' a)) : Steady H s (m >>= f) (m >>= f') := by
  unfold Steady
  rcases hx : m s with ⟨o, p⟩
  cases o with
  | ok a => rw [M.bind_ok hx, M.bind_ok hx]; exact h a p hx
  | err e => rw [M.bind_err hx, M.bind_err hx]; exact fun _ => rfl
  | panic w => rw [M.bind_panic hx, M.bind_panic hx]; exact fun _ => rfl
  | diverge => rw [M.bind_diverge hx, M.bind_diverge hx]; exact fun _ => rfl

omit [GoFloat F] in
theorem Steady.after {H : Fac F → Prop} {s : Fac F} {m m' : M (Fac F) α} {f : α → M (Fac F) β}
    (h : Steady H s m m') : Steady H s (m >>= f) (m' >>= f) := by
  intro k
  rw [M.bind_apply, M.bind_apply, h]
  rcases hx : m s with ⟨o, p⟩
  cases o with
  | ok a => exact .inl (fun h => nomatch h)
  | err e => exact .inl (fun h => nomatch h)
  | panic w => exact .inl (fun h => nomatch h)
  | diverge =>
    rw [M.bind_diverge hx] at k
    exact k.elim (fun h => absurd rfl h) .inr

omit [GoFloat F] in
theorem Steady.wrap {H : Fac F → Prop} {s : Fac F} {m m' : M (Fac F) α} (h : Steady H s m m') (w : String) :
    Steady H s (M.wrapErr w m) (M.wrapErr w m') := by
  intro k
  unfold M.wrapErr at k ⊢
  rw [h]
  rcases hx : m s with ⟨o, p⟩
  rw [hx] at k
  cases o with
  | ok a => exact .inl (fun h => nomatch h)
  | err e => exact .inl (fun h => nomatch h)
  | panic w => exact .inl (fun h => nomatch h)
  | diverge => exact k

/-- The fuel suffices to parse the template with the tables at hand. -/
def Fueled (n : Nat) (s : Fac F) : Prop := ∀ u g, s.ut = some u → s.tableGroup = some g → parse g.lookup n u.ids ≠ .diverge

theorem steady_payload {c : FacCfg} {n : Nat} (hn : c.fuel ≤ n) (name : GoString) (nsubsets : Int)
    (x : Bool) {s : Fac F} {g : ChainGroup} (hg : s.tableGroup = some g) :
    Steady (Fueled c.fuel) s (Fac.newPayloadField c name nsubsets x) (Fac.newPayloadField (fueled c n) name nsubsets x) := by
  have hl : Fac.lookup s = g.lookup := by unfold Fac.lookup; rw [hg]
  unfold Fac.newPayloadField
  refine Steady.bind fun a p hp => ?_
  obtain rfl : p = s := by cases hp; rfl
  have : Steady (Fueled c.fuel) p (Fac.parseTemplate c) (Fac.parseTemplate (fueled c n)) := by
    cases hu : p.ut with
    | none =>
      unfold Steady Fac.parseTemplate
      rw [hu]
      exact fun _ => rfl
    | some u =>
      unfold Steady Fac.parseTemplate
      rw [hu]
      dsimp only
      rw [hl]
      intro k
      have hd : parse g.lookup c.fuel u.ids ≠ .diverge := by
        intro e
        rw [e] at k
        exact k.elim (fun h => h rfl) fun h => h u g hu hg e
      rw [parse_eq, parse_eq, parseF_mono (good_chain g) hn]
      intro e
      rw [parse_eq, e] at hd
      exact hd rfl
  have e : (fun t => Fac.verboseDump (fueled c n) t >>= fun _ => Fac.decodePayload (fueled c n) t nsubsets x >>= fun pay =>
      (M.gets fun s => s.r.pos) >>= fun epos => Fac.addField (Gobufr.newField name (.payload pay) (epos - a)) >>= fun _ =>
      Fac.setProxyField (Gobufr.newField name (.payload pay) (epos - a)) >>= fun _ =>
      (pure (Gobufr.newField name (.payload pay) (epos - a)) : M (Fac F) (Field F))) =
      (fun t => Fac.verboseDump c t >>= fun _ => Fac.decodePayload c t nsubsets x >>= fun pay =>
      (M.gets fun s => s.r.pos) >>= fun epos => Fac.addField (Gobufr.newField name (.payload pay) (epos - a)) >>= fun _ =>
      Fac.setProxyField (Gobufr.newField name (.payload pay) (epos - a)) >>= fun _ =>
      (pure (Gobufr.newField name (.payload pay) (epos - a)) : M (Fac F) (Field F))) := by
    funext t
    rw [payload_fuel (c := c) (c' := fueled c n) rfl]
    rfl
  exact e ▸ this.after

theorem steady_section4 {c : FacCfg} {n : Nat} (hn : c.fuel ≤ n) {s : Fac F} {g : ChainGroup} (hg : s.tableGroup = some g) :
    Steady (Fueled c.fuel) s (Script.section4 c : M (Fac F) Unit) (Script.section4 (fueled c n)) := by
  unfold Script.section4
  refine Steady.bind fun _ s1 e1 => Steady.bind fun _ s2 e2 => Steady.bind fun _ s3 e3 => Steady.bind fun k s4 e4 =>
    Steady.bind fun v s5 e5 => Steady.after (Steady.wrap (steady_payload hn _ _ _ (g := g) ?_) _)
  obtain ⟨rfl, -⟩ := proxyValue_ok e4
  obtain ⟨rfl, -⟩ := proxyValue_ok e5
  rw [keep (plain_field _) e3, keep (plain_field _) e2, keep (plain_newSection _ _) e1, hg]

theorem steady_deserialise {c : FacCfg} {n : Nat} (hn : c.fuel ≤ n) (ds : List FieldDecl) (s : Fac F) :
    Steady (Fueled c.fuel) s (Script.deserialise c ds : M (Fac F) (Message F)) (Script.deserialise (fueled c n) ds) := by
  unfold Script.deserialise
  refine Steady.bind fun _ _ _ => Steady.bind fun _ _ _ => Steady.bind fun _ _ _ =>
    Steady.bind fun _ _ _ => Steady.bind fun _ s _ => ?_
  show Steady _ _ _ (Script.initTableGroup c >>= _)
  unfold Script.initTableGroup
  simp only [M.bind_assoc]
  refine Steady.bind fun _ _ _ => Steady.bind fun _ _ _ => Steady.bind fun _ _ _ =>
    Steady.bind fun _ _ _ => Steady.bind fun _ _ _ => Steady.bind fun _ p e => ?_
  obtain ⟨g, h1, rfl⟩ := tables_ok e
  exact Steady.after (steady_section4 hn rfl)

theorem steady_run {c : FacCfg} {n : Nat} (hn : c.fuel ≤ n) (s : Fac F) :
    Steady (Fueled c.fuel) s (Runtime.run c : M (Fac F) (Message F)) (Runtime.run (fueled c n)) := by
  unfold Runtime.run Script.boot
  refine Steady.bind fun _ _ _ => Steady.bind fun k p _ => ?_
  by_cases h4 : k = 4
  · simp only [if_pos h4]
    exact steady_deserialise hn _ p
  · by_cases h3 : k = 3
    · simp only [if_neg h4, if_pos h3]
      exact steady_deserialise hn _ p
    · simp only [if_neg h4, if_neg h3]
      exact fun _ => rfl

end Gobufr.EndsSpec
