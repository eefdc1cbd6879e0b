import Verif.Spec.Safe
import Verif.Proofs.PayloadFacts

/-!
# Calls that do not crash
-/

set_option linter.unusedSectionVars false

namespace Gobufr
open Safety

/-- From a state with `P`, the call returns normally with `Q`, or returns an error, or crashes with `E`. -/
def Safe (P : σ → Prop) (m : M σ α) (Q : α → σ → Prop) (E : σ → Prop) : Prop :=
  ∀ s, P s → match (m s).1 with
    | .ok a => Q a (m s).2
    | .err _ => True
    | _ => E (m s).2

namespace Safe
variable {σ : Type} {P P' : σ → Prop} {E E' : σ → Prop}

theorem bind {m : M σ α} {f : α → M σ β} {Q : α → σ → Prop} {R : β → σ → Prop} (hm : Safe P m Q E)
    (hf : ∀ a, Safe (Q a) (f a) R E) : Safe P (m >>= f) R E := by
  intro s hs
  have h := hm s hs
  rw [M.bind_apply]
  rcases hr : m s with ⟨o, s'⟩
  rw [hr] at h
  cases o with
  | ok a => exact hf a s' h
  | err e => trivial
  | panic w => exact h
  | diverge => exact h

theorem pure {a : α} {Q : α → σ → Prop} (h : ∀ s, P s → Q a s) : Safe P (Pure.pure a : M σ α) Q E := fun s hs => h s hs

theorem fail {e : Err} {Q : α → σ → Prop} : Safe P (M.fail e : M σ α) Q E := fun _ _ => trivial

theorem conseq {m : M σ α} {Q Q' : α → σ → Prop} (hm : Safe P m Q E) (hP : ∀ s, P' s → P s)
    (hQ : ∀ a s, Q a s → Q' a s) (hE : ∀ s, E s → E' s) : Safe P' m Q' E' := by
  intro s hs
  have h := hm s (hP s hs)
  rcases hr : m s with ⟨o, s'⟩
  rw [hr] at h
  cases o with
  | ok a => exact hQ _ _ h
  | err e => trivial
  | panic w => exact hE _ h
  | diverge => exact hE _ h

theorem post {m : M σ α} {Q Q' : α → σ → Prop} (hm : Safe P m Q E) (hQ : ∀ a s, Q a s → Q' a s) : Safe P m Q' E :=
  hm.conseq (fun _ h => h) hQ fun _ h => h

theorem pre {m : M σ α} {Q : α → σ → Prop} (hm : Safe P m Q E) (hP : ∀ s, P' s → P s) : Safe P' m Q E :=
  hm.conseq hP (fun _ _ h => h) fun _ h => h

/-- What is known of the results can be added. -/
theorem more {m : M σ α} {Q Q' : α → σ → Prop} (hm : Safe P m Q E)
    (hQ : ∀ s s' a, P s → m s = (.ok a, s') → Q a s' → Q' a s') : Safe P m Q' E := by
  intro s hs
  have h := hm s hs
  rcases hr : m s with ⟨o, s'⟩
  rw [hr] at h
  cases o with
  | ok a => exact hQ _ _ _ hs hr h
  | err e => trivial
  | panic w => exact h
  | diverge => exact h

theorem ite {p : Prop} [Decidable p] {m m' : M σ α} {Q : α → σ → Prop} (h : p → Safe P m Q E) (h' : ¬ p → Safe P m' Q E) :
    Safe P (if p then m else m') Q E := by
  by_cases hp : p
  · rw [if_pos hp]; exact h hp
  · rw [if_neg hp]; exact h' hp

theorem wrapErr {w : String} {m : M σ α} {Q : α → σ → Prop} (hm : Safe P m Q E) : Safe P (M.wrapErr w m) Q E := by
  intro s hs
  have h := hm s hs
  unfold M.wrapErr
  rcases hr : m s with ⟨o, s'⟩
  rw [hr] at h
  cases o <;> first | exact h | trivial

theorem modify {f : σ → σ} {Q : PUnit → σ → Prop} (h : ∀ s, P s → Q ⟨⟩ (f s)) : Safe P (M.modify f) Q E := fun s hs => h s hs

theorem lift {o : Outcome α} {Q : α → σ → Prop} (ho : ¬ o.crashed) (h : ∀ a s, o = .ok a → P s → Q a s) :
    Safe P (M.lift o) Q E := by
  intro s hs
  cases o with
  | ok a => exact h a s rfl hs
  | err e => trivial
  | panic w => exact absurd trivial ho
  | diverge => exact absurd trivial ho

/-- A call that looks at the state only. -/
theorem look {g : σ → Outcome α} {Q : α → σ → Prop} (ho : ∀ s, P s → ¬ (g s).crashed) (h : ∀ a s, g s = .ok a → P s → Q a s) :
    Safe P (fun s => (g s, s)) Q E := by
  intro s hs
  have := ho s hs
  show match g s with
    | .ok a => Q a s
    | .err _ => True
    | _ => E s
  cases hr : g s with
  | ok a => exact h a s hr hs
  | err e => trivial
  | panic w => rw [hr] at this; exact absurd trivial this
  | diverge => rw [hr] at this; exact absurd trivial this

theorem zoom {τ : Type} {g : σ → τ} {p : τ → σ → σ} {m : M τ α} {P' : τ → Prop} {Q' : α → τ → Prop} {Q : α → σ → Prop}
    (hm : Safe P' m Q' fun _ => False) (hP : ∀ s, P s → P' (g s)) (hQ : ∀ a t s, P s → Q' a t → Q a (p t s)) :
    Safe P (M.zoom g p m) Q E := by
  intro s hs
  have h := hm (g s) (hP s hs)
  unfold M.zoom
  rcases hr : m (g s) with ⟨o, s'⟩
  rw [hr] at h
  cases o with
  | ok a => exact hQ a s' s hs h
  | err e => trivial
  | panic w => exact h.elim
  | diverge => exact h.elim

theorem repeatM {m : M σ Unit} (hm : Safe P m (fun _ => P) E) : ∀ k, Safe P (Vis.repeatM m k) (fun _ => P) E
  | 0 => pure fun _ h => h
  | k + 1 => bind hm fun _ => repeatM hm k

theorem fillM {m : M σ α} {A : α → Prop} (hm : Safe P m (fun a s => A a ∧ P s) E) :
    ∀ k, Safe P (Gobufr.fillM m k) (fun l s => (∀ a ∈ l, A a) ∧ P s) E
  | 0 => pure fun _ h => ⟨by simp, h⟩
  | k + 1 => by
    refine bind hm fun a => ?_
    intro s ⟨ha, hs⟩
    refine (bind (fillM hm k) (R := fun l s => (∀ a ∈ l, A a) ∧ P s) fun l => pure fun s h => ⟨?_, h.2⟩) s hs
    intro b hb
    rcases List.mem_cons.1 hb with rfl | hb
    · exact ha
    · exact h.1 b hb

end Safe

/-! ## Reading bits -/

/-- The call never crashes. -/
def NoCrash (m : M σ α) : Prop := ∀ s, ¬ (m s).1.crashed

namespace NoCrash
variable {σ : Type}

theorem bind {m : M σ α} {f : α → M σ β} (hm : NoCrash m) (hf : ∀ a, NoCrash (f a)) : NoCrash (m >>= f) := by
  intro s
  have h := hm s
  rw [M.bind_apply]
  rcases hr : m s with ⟨o, s'⟩
  rw [hr] at h
  cases o with
  | ok a => exact hf a s'
  | err e => exact id
  | panic w => exact h
  | diverge => exact h

theorem pure (a : α) : NoCrash (Pure.pure a : M σ α) := fun _ => id

theorem ite {p : Prop} [Decidable p] {m m' : M σ α} (h : p → NoCrash m) (h' : ¬ p → NoCrash m') : NoCrash (if p then m else m') := by
  by_cases hp : p
  · rw [if_pos hp]; exact h hp
  · rw [if_neg hp]; exact h' hp

theorem readByte : NoCrash Gobufr.readByte := by
  intro s
  unfold Gobufr.readByte
  split <;> exact id

theorem readBit : NoCrash Gobufr.readBit := by
  intro s
  cases s <;> exact id

theorem byteLoop : ∀ k u, NoCrash (readBitsByteLoop k u)
  | 0, _ => pure _
  | k + 1, _ => readByte.bind fun _ => byteLoop k _

theorem bitLoop : ∀ k u, NoCrash (readBitsBitLoop k u)
  | 0, _ => pure _
  | k + 1, _ => readBit.bind fun _ => bitLoop k _

theorem readBits (n : Int) : NoCrash (Gobufr.readBits n) := (byteLoop _ _).bind fun _ => bitLoop _ _

theorem onSrc {m : M Bits α} (hm : NoCrash m) : NoCrash (BitReader.onSrc m) := by
  intro r
  unfold BitReader.onSrc
  exact hm r.src

theorem advance (n : Int) : NoCrash (BitReader.advance n) := fun _ => id

theorem readUint (n : Int) : NoCrash (BitReader.readUint n) := (advance n).bind fun _ => onSrc (readBits n)

theorem readBool : NoCrash BitReader.readBool := (advance 1).bind fun _ => onSrc readBit

theorem readInt (n : Int) : NoCrash (BitReader.readInt n) :=
  readBool.bind fun _ => (advance _).bind fun _ => (onSrc (readBits _)).bind fun _ => ite (fun _ => pure _) fun _ => pure _

theorem readFloat32 [GoFloat F] : NoCrash (BitReader.readFloat32 (F := F)) := (readUint 32).bind fun _ => pure _

theorem readBytesLoop : ∀ k, NoCrash (BitReader.readBytesLoop k)
  | 0 => pure _
  | k + 1 => (onSrc readByte).bind fun _ => (readBytesLoop k).bind fun _ => pure _

theorem readBytes {n : Int} (hn : 0 ≤ n) : NoCrash (BitReader.readBytes n) :=
  (advance _).bind fun _ => ite (fun h => by omega) fun _ => readBytesLoop _

theorem readBinaryLoop : ∀ k n b, NoCrash (BitReader.readBinaryLoop k n b)
  | 0, _, _ => pure _
  | k + 1, n, b => by
    intro r
    have h := onSrc (readBits (if n < 8 then n else 8)) r
    unfold BitReader.readBinaryLoop
    split
    · exact readBinaryLoop k _ _ _
    · exact id
    · rename_i hr; rw [hr] at h; exact h
    · rename_i hr; rw [hr] at h; exact h

theorem readBinary (n : Int) : NoCrash (BitReader.readBinary n) := by
  refine (advance _).bind fun _ => (readBinaryLoop _ _ _).bind fun b => ?_
  cases b <;> exact pure _

theorem wrapErr {w : String} {m : M σ α} (hm : NoCrash m) : NoCrash (M.wrapErr w m) := by
  intro s
  have h := hm s
  unfold M.wrapErr
  rcases hr : m s with ⟨o, s'⟩
  rw [hr] at h
  cases o <;> first | exact h | exact id

theorem bytesOfBits_length : ∀ l : Bits, (BitReader.bytesOfBits l).length = l.length / 8
  | a :: b :: c :: d :: e :: f :: g :: h :: t => by
    simp only [BitReader.bytesOfBits, List.length_cons, bytesOfBits_length t]
    omega
  | [] | [_] | [_, _] | [_, _, _] | [_, _, _, _] | [_, _, _, _, _] | [_, _, _, _, _, _] | [_, _, _, _, _, _, _] => by simp [BitReader.bytesOfBits]

theorem peek {skip n : Int} (hs : 0 ≤ skip) (hn : 0 ≤ n) : NoCrash (BitReader.peek skip n) := by
  intro r
  unfold BitReader.peek
  split
  · exact id
  · split
    · rw [if_neg (by omega)]; exact id
    · rename_i b hb
      split
      · rename_i h
        rcases h with h | h
        · omega
        · unfold BitReader.bufPeek at hb
          split at hb
          · cases hb
          split at hb
          · cases hb
          simp only [] at hb
          split at hb
          · cases hb
          rename_i hl
          cases hb
          rw [bytesOfBits_length] at h
          omega
      · exact id
    · rename_i h
      unfold BitReader.bufPeek at h
      split at h
      · cases h
      split at h
      · cases h
      simp only [] at h
      split at h <;> cases h
    · rename_i h
      unfold BitReader.bufPeek at h
      split at h
      · cases h
      split at h
      · cases h
      simp only [] at h
      split at h <;> cases h

theorem ofLift {o : Outcome α} (h : ¬ o.crashed) : NoCrash (M.lift o : M σ α) := fun _ => h

theorem wrapO {w : String} {o : Outcome α} (h : ¬ o.crashed) : ¬ (BitReader.wrapO w o).crashed := by
  cases o <;> first | exact h | exact id

theorem peekUint {skip n : Int} (hs : 0 ≤ skip) (hn : 0 ≤ n) : NoCrash (BitReader.peekUint skip n) := by
  refine (wrapErr (peek hs ?_)).bind fun b => ofLift (wrapO (readUint n _))
  have := Int.tdiv_nonneg hn (show (0 : Int) ≤ 8 by decide)
  split <;> omega

theorem peekBytes {skip n : Int} (hs : 0 ≤ skip) (hn : 0 ≤ n) : NoCrash (BitReader.peekBytes skip n) :=
  (wrapErr (peek hs hn)).bind fun _ => ofLift (wrapO (readBytes hn _))

end NoCrash

namespace Safe
variable {F : Type}

/-- The reader is one of binary input. -/
def Bin (r : Reader F) : Prop := ∃ b, r = .bin b

theorem call {mb : M BitReader α} {mj : M (PeekJson F) α} {E : Reader F → Prop} (hm : NoCrash mb) :
    Safe Bin (Reader.call mb mj) (fun _ => Bin) E := by
  rintro _ ⟨b, rfl⟩
  have h := hm b
  unfold Reader.call
  cases hr : (mb b).1 with
  | ok a => exact ⟨_, rfl⟩
  | err e => trivial
  | panic w => rw [hr] at h; exact absurd trivial h
  | diverge => rw [hr] at h; exact absurd trivial h

/-! ## Unpacking -/

/-- Not a string. -/
def NotText (v : Val F) : Prop := ∀ b, v ≠ .bytes b

variable [GoFloat F]

theorem uncompress {info : PackingInfo F} {E : Reader F → Prop} (h : info.unit = .string → 0 ≤ info.nbits) :
    Safe Bin (uncompressUnpack info) (fun _ => Bin) E := by
  unfold uncompressUnpack
  have hu : ∀ (o : Nat → Outcome (Val F)), (∀ n, ¬ (o n).crashed) → Safe Bin (do let v ← Reader.readUint info.nbits; M.lift (o v)) (fun _ => Bin) E :=
    fun o ho => (call (NoCrash.readUint _)).bind fun v => lift (ho v) fun _ _ _ h => h
  have hmiss : ∀ x, ¬ (unpackMissing info x).crashed := by
    intro x
    unfold unpackMissing
    split <;> exact id
  have hnum : ∀ x, ¬ (unpackNumeric info x).crashed := by
    intro x
    unfold unpackNumeric unpackMissing
    split <;> (simp only [Outcome.bind_ok]; split <;> first | exact id | (split <;> exact id))
  split
  · rename_i hu
    exact (call (NoCrash.readBytes (Int.tdiv_nonneg (h hu) (by decide)))).bind fun _ => pure fun _ h => h
  · exact (call (NoCrash.readInt _)).bind fun _ => pure fun _ h => h
  · exact ite (fun _ => pure fun _ h => h) fun _ => hu _ hmiss
  · exact ite (fun _ => pure fun _ h => h) fun _ => hu _ hmiss
  · exact hu _ hnum
  · exact (call (NoCrash.readBinary _)).bind fun _ => pure fun _ h => h

theorem bitLoop_lt : ∀ (k u : Nat) (s s' : Bits) (v : Nat), readBitsBitLoop k u s = (.ok v, s') → v < (u + 1) * 2 ^ k
  | 0, u, s, s', v, h => by cases h; omega
  | k + 1, u, s, s', v, h => by
    obtain ⟨b, t, _, h⟩ := M.bind_eq_ok.1 h
    have := bitLoop_lt k _ _ _ _ h
    have h1 : pushBit u b % two64 + 1 ≤ (u + 1) * 2 := by
      have := Nat.mod_le (pushBit u b) two64
      have : pushBit u b ≤ 2 * u + 1 := by unfold pushBit; cases b <;> simp
      omega
    calc v < (pushBit u b % two64 + 1) * 2 ^ k := this
      _ ≤ (u + 1) * 2 * 2 ^ k := Nat.mul_le_mul_right _ h1
      _ = (u + 1) * 2 ^ (k + 1) := by rw [Nat.pow_succ, Nat.mul_assoc, Nat.mul_comm 2]

theorem toInt64_nonneg {n : Nat} (h : n < 64) : 0 ≤ toInt64 (n : Int) := by
  unfold toInt64
  rw [Int.bmod_def]
  have : (n : Int) % (two64 : Nat) = n := Int.emod_eq_of_lt (by omega) (by unfold two64; omega)
  rw [this]
  split <;> unfold two64 at * <;> omega

theorem readNbitsDiff {E : Reader F → Prop} : Safe Bin (Gobufr.readNbitsDiff (F := F)) (fun n r => 0 ≤ n ∧ Bin r) E := by
  refine bind (Q := fun n r => n < 64 ∧ Bin r) ?_ fun n => pure fun _ h => ⟨toInt64_nonneg h.1, h.2⟩
  refine more (call (NoCrash.readUint 6)) ?_
  rintro _ s' n ⟨b, rfl⟩ h hs
  have h1 : (readBitsBitLoop 6 0 b.src).1 = .ok n := congrArg Prod.fst h
  have := bitLoop_lt 6 0 _ _ _ (eq_of_fst h1)
  exact ⟨by omega, hs⟩

theorem makeCheck {n : Int} (hn : 0 ≤ n) {P E : Reader F → Prop} : Safe P (Gobufr.makeCheck n) (fun _ => P) E :=
  ite (fun h => by omega) fun _ => pure fun _ h => h

theorem missing_calm (info : PackingInfo F) (x : Nat) : ¬ (unpackMissing info x).crashed ∧ ∀ v, unpackMissing info x = .ok v → NotText v := by
  unfold unpackMissing
  split <;> exact ⟨id, fun v h b => by cases h; nofun⟩

theorem numeric_calm (info : PackingInfo F) (x : Nat) : ¬ (unpackNumeric info x).crashed ∧ ∀ v, unpackNumeric info x = .ok v → NotText v := by
  unfold unpackNumeric unpackMissing
  split <;> (simp only [Outcome.bind_ok]; split <;> first | exact ⟨id, fun v h b => by cases h; nofun⟩ | (split <;> exact ⟨id, fun v h b => by cases h; nofun⟩))

theorem unpackOthers {n : Int} (hn : 0 ≤ n) {info : PackingInfo F} {fn : PackingInfo F → Nat → Outcome (Val F)}
    (hf : ∀ x, ¬ (fn info x).crashed ∧ ∀ v, fn info x = .ok v → NotText v) {E : Reader F → Prop} :
    Safe Bin (Gobufr.unpackOthers n info fn) (fun c r => (∀ v ∈ c.values, NotText v) ∧ Bin r) E := by
  unfold Gobufr.unpackOthers
  refine (call (NoCrash.readUint _)).bind fun mv => (readNbitsDiff.post fun _ _ h => h.2).bind fun nd => (makeCheck hn).bind fun _ => ite (fun _ => ?_) fun _ =>
    ite (fun _ => fail) fun _ => ?_
  · refine bind (Q := fun v r => NotText v ∧ Bin r) (lift (hf mv).1 fun a s ha hs => ⟨(hf mv).2 a ha, hs⟩) fun v => pure fun s h => ⟨?_, h.2⟩
    intro w hw
    rw [List.eq_of_mem_replicate hw]
    exact h.1
  · refine (fillM (A := NotText) ?_ _).bind fun vs => pure fun s h => h
    unfold unpackDiff
    refine (call (NoCrash.readUint _)).bind fun d => ite (fun _ => pure fun _ h => ⟨nofun, h⟩) fun _ => ?_
    exact lift (hf _).1 fun a s ha hs => ⟨(hf _).2 a ha, hs⟩

theorem unpackString {n : Int} (hn : 0 ≤ n) {info : PackingInfo F} (hw : 0 ≤ info.nbits) {E : Reader F → Prop} :
    Safe Bin (Gobufr.unpackString n info) (fun _ => Bin) E := by
  unfold Gobufr.unpackString
  refine (call (NoCrash.readBytes (Int.tdiv_nonneg hw (by decide)))).bind fun mv => readNbitsDiff.bind fun nd => ?_
  intro s ⟨hd, hs⟩
  refine Safe.bind (makeCheck hn) (fun _ => ite (fun _ => pure fun _ h => h) fun _ => ite (fun _ => fail) fun _ => ?_) s hs
  refine bind (fillM (A := fun _ => True) ?_ _) fun vs => pure fun s h => h.2
  exact (call (NoCrash.readBytes hd)).post fun _ _ h => ⟨trivial, h⟩

theorem compressed {n : Int} (hn : 0 ≤ n) {fuel : Nat} {info : PackingInfo F} (h : info.unit = .string → 0 ≤ info.nbits)
    (hc : info.unit ≠ .code) (hb : info.unit ≠ .binary) {E : Reader F → Prop} :
    Safe Bin (compressedUnpack n fuel info) (fun c r => (info.unit ≠ .string → ∀ v ∈ c.values, NotText v) ∧ Bin r) E := by
  unfold compressedUnpack
  have hz : Safe Bin (do Gobufr.makeCheck n; Pure.pure (⟨.uint 0, 0, List.replicate n.toNat (.uint 0)⟩ : CompressedVal F))
      (fun c r => (info.unit ≠ .string → ∀ v ∈ c.values, NotText v) ∧ Bin r) E :=
    (makeCheck hn).bind fun _ => pure fun _ h => ⟨fun _ v hv => by rw [List.eq_of_mem_replicate hv]; nofun, h⟩
  split
  · rename_i hu
    exact (unpackString hn (h hu)).post fun _ _ h => ⟨fun h' => absurd hu h', h⟩
  · rename_i hu; exact absurd hu hc
  · exact ite (fun _ => hz) fun _ => (unpackOthers hn (missing_calm info)).post fun _ _ h => ⟨fun _ => h.1, h.2⟩
  · exact ite (fun _ => hz) fun _ => (unpackOthers hn (missing_calm info)).post fun _ _ h => ⟨fun _ => h.1, h.2⟩
  · exact (unpackOthers hn (numeric_calm info)).post fun _ _ h => ⟨fun _ => h.1, h.2⟩
  · rename_i hu; exact absurd hu hb

end Safe


/-! ## Decoding a harmless template -/

namespace Flat
variable {F : Type} [GoFloat F]
open Safe

/-- A configuration for binary input; compressed data has subsets. -/
structure BinCfg (c : VisCfg) : Prop where
  unpacker : if c.compressed then ∃ fuel, c.unpacker = .compressed c.nsubsets fuel else c.unpacker = .uncompress
  subsets : c.compressed = true → 0 < c.nsubsets

/-- The state of a decoder that has met nothing harmful, with at least `n` associated fields in force. -/
structure Inv (c : VisCfg) (n : Nat) (f : State F) : Prop where
  bin : Bin f.r
  subsets : f.subsets = if c.compressed then some c.nsubsets.toNat else none
  string : 0 ≤ f.nbitsString
  assoc : n ≤ f.assoc.length

variable {c : VisCfg} {E : State F → Prop}

theorem Inv.le {n m : Nat} {f : State F} (h : Inv c n f) (hm : m ≤ n) : Inv c m f := { h with assoc := by have := h.assoc; omega }

/-- What can be read. -/
structure Fine (c : VisCfg) (info : PackingInfo F) : Prop where
  string : info.unit = .string → 0 ≤ info.nbits
  code : c.compressed = true → info.unit ≠ .code
  binary : c.compressed = true → info.unit ≠ .binary

/-- The last column, if there is one, has no text when it comes from compressed data. -/
def LastOk (c : VisCfg) (u : Unit') (f : State F) : Prop :=
  ∃ col, f.cols.getLast? = some col ∧ (c.compressed = true → u ≠ .string → ∀ v ∈ col.vals, NotText v)

theorem build_safe (hc : BinCfg c) {n : Nat} {d : NodeDesc} {info : PackingInfo F} (hi : Fine c info) :
    Safe (Inv c n) (build c d info) (fun _ f => Inv c n f ∧ LastOk c info.unit f) E := by
  unfold build
  have hu := hc.unpacker
  cases hcomp : c.compressed with
  | false =>
    rw [hcomp] at hu
    simp only [Bool.false_eq_true, if_false] at hu
    refine Safe.bind (Q := fun v f => Inv c n f ∧ ∃ x, v = .plain x) (zoom (P' := Bin) (Q' := fun v r => Bin r ∧ ∃ x, v = .plain x) ?_ (fun s h => h.bin) ?_) fun v => ?_
    · rw [hu]
      exact (uncompress hi.string).bind fun _ => Safe.pure fun _ h => ⟨h, _, rfl⟩
    · rintro v r f hf ⟨h1, h2⟩
      exact ⟨{ hf with bin := h1 }, h2⟩
    · rintro f ⟨hf, x, rfl⟩
      have hs := hf.subsets
      rw [hcomp] at hs
      simp only [Bool.false_eq_true, if_false] at hs
      simp only [hs]
      refine ⟨⟨hf.bin, by rw [hcomp]; rfl, hf.string, hf.assoc⟩, _, List.getLast?_concat, fun h => by rw [hcomp] at h; cases h⟩
  | true =>
    rw [hcomp] at hu
    simp only [if_true] at hu
    obtain ⟨fuel, hu⟩ := hu
    have hn := hc.subsets hcomp
    refine Safe.bind (Q := fun v f => Inv c n f ∧ ∃ x, v = .compressed x ∧ (info.unit ≠ .string → ∀ v ∈ x.values, NotText v))
      (zoom (P' := Bin) (Q' := fun v r => Bin r ∧ ∃ x, v = .compressed x ∧ (info.unit ≠ .string → ∀ v ∈ x.values, NotText v)) ?_ (fun s h => h.bin) ?_) fun v => ?_
    · rw [hu]
      exact (Safe.compressed (by omega) hi.string (hi.code hcomp) (hi.binary hcomp)).bind fun _ => Safe.pure fun _ h => ⟨h.2, _, rfl, h.1⟩
    · rintro v r f hf ⟨h1, h2⟩
      exact ⟨{ hf with bin := h1 }, h2⟩
    · rintro f ⟨hf, x, rfl, hx⟩
      have hs := hf.subsets
      rw [hcomp] at hs
      simp only [if_true] at hs
      obtain ⟨k, hk⟩ : ∃ k, c.nsubsets.toNat = k + 1 := ⟨c.nsubsets.toNat - 1, by omega⟩
      rw [hk] at hs
      simp only [hs]
      refine ⟨⟨hf.bin, by rw [hcomp, hk]; rfl, hf.string, hf.assoc⟩, _, List.getLast?_concat, fun _ h => hx h⟩

/-- The packing of a readable element. -/
theorem packing_fine {n : Nat} {d : Desc} (hd : readable c.compressed d = true) {f : State F} (hf : Inv c n f) :
    ∃ info e, f.packing (some d) = .ok info ∧ d.entry = .b e ∧ info.unit = e.unit ∧ Fine c info := by
  unfold readable at hd
  split at hd
  · rename_i e he
    simp only [Bool.and_eq_true, Bool.or_eq_true, bne_iff_ne, ne_eq, decide_eq_true_eq, Bool.not_eq_true'] at hd
    have h2 : c.compressed = true → e.unit ≠ .code ∧ e.unit ≠ .binary := fun h => hd.2.resolve_left (by simp [h])
    unfold State.packing
    simp only [he]
    cases hu : e.unit with
    | string =>
      refine ⟨_, e, rfl, rfl, hu.symm, ⟨fun _ => ?_, fun _ => nofun, fun _ => nofun⟩⟩
      simp only []
      split
      · exact hf.string
      · exact hd.1.resolve_left (by simp [hu])
    | numeric => exact ⟨_, e, rfl, rfl, hu.symm, ⟨nofun, fun _ => nofun, fun _ => nofun⟩⟩
    | code => exact ⟨_, e, rfl, rfl, hu.symm, ⟨nofun, fun h => hu ▸ (h2 h).1, fun _ => nofun⟩⟩
    | binary => exact ⟨_, e, rfl, rfl, hu.symm, ⟨nofun, fun _ => nofun, fun h => hu ▸ (h2 h).2⟩⟩
    | flag => exact ⟨_, e, rfl, rfl, hu.symm, ⟨nofun, fun _ => nofun, fun _ => nofun⟩⟩
    | nonnegCode => exact ⟨_, e, rfl, rfl, hu.symm, ⟨nofun, fun _ => nofun, fun _ => nofun⟩⟩
  · cases hd

theorem buildElement_safe (hc : BinCfg c) {n : Nat} {d : Desc} (hd : readable c.compressed d = true) :
    Safe (Inv c n) (buildElement c d)
      (fun _ f => Inv c n f ∧ ∀ e, d.entry = .b e → LastOk c e.unit f) E := by
  unfold buildElement
  refine Safe.bind (Q := fun info f => Inv c n f ∧ Fine c info ∧ ∀ e, d.entry = .b e → info.unit = e.unit) ?_ fun info => ?_
  · intro f hf
    obtain ⟨info, e, h1, h2, h3, h4⟩ := packing_fine (F := F) hd hf
    simp only [h1]
    exact ⟨hf, h4, fun e' he' => by rw [h2] at he'; cases he'; exact h3⟩
  · rintro f ⟨hf, h4, h5⟩
    have hb : Safe (Inv c n) (build c ⟨some d, false⟩ info) (fun _ f => Inv c n f ∧ LastOk c info.unit f) E := build_safe hc h4
    exact hb.post (Q' := fun _ f => Inv c n f ∧ ∀ e, d.entry = .b e → LastOk c e.unit f)
      (fun i f' h => ⟨h.1, fun e he => h5 e he ▸ h.2⟩) f hf

theorem LastOk.attach {u : Unit'} {f : State F} {i : Nat} {j : Option Nat} (h : LastOk c u f) :
    LastOk c u { f with cols := f.cols.modify i fun x => { x with attrs := x.attrs ++ [j] } } := by
  obtain ⟨col, h1, h2⟩ := h
  rw [List.getLast?_eq_getElem?] at h1
  by_cases hi : i = f.cols.length - 1
  · refine ⟨{ col with attrs := col.attrs ++ [j] }, ?_, h2⟩
    rw [List.getLast?_eq_getElem?, List.length_modify, List.getElem?_modify, h1]
    simp [hi]
  · refine ⟨col, ?_, h2⟩
    rw [List.getLast?_eq_getElem?, List.length_modify, List.getElem?_modify, h1]
    simp [hi]

theorem attachTo_safe {i : Nat} {j : Option Nat} {n : Nat} : Safe (Inv c n) (attachTo i j) (fun _ => Inv c n) E :=
  Safe.modify fun _ h => { h with }

theorem attachTo_last {i : Nat} {j : Option Nat} {n : Nat} {u : Unit'} :
    Safe (fun f => Inv c n f ∧ LastOk c u f) (attachTo i j) (fun _ f => Inv c n f ∧ LastOk c u f) E :=
  Safe.modify fun _ h => ⟨{ h.1 with }, h.2.attach⟩

theorem attachAll_last {i n : Nat} {u : Unit'} : (js : List Nat) →
    Safe (fun f => Inv c n f ∧ LastOk c u f) (attachAll i js) (fun _ f => Inv c n f ∧ LastOk c u f) E
  | [] => Safe.pure fun _ h => h
  | _ :: js => attachTo_last.bind fun _ => attachAll_last js

theorem plain_fine {u : Unit'} {k : Int} (h1 : u = .string → 0 ≤ k) (h2 : c.compressed = true → u ≠ .code)
    (h3 : c.compressed = true → u ≠ .binary) : Fine (F := F) c (Vis.plainInfo u k) := ⟨h1, h2, h3⟩

theorem assoc_fine {k : Int} : Fine (F := F) c (Vis.plainInfo .nonnegCode k) := plain_fine nofun (fun _ => nofun) fun _ => nofun

theorem buildAssocs_safe (hc : BinCfg c) {n : Nat} {d : Desc} : (as : List Assoc) →
    Safe (Inv c n) (buildAssocs (F := F) c d as) (fun _ => Inv c n) E
  | [] => Safe.pure fun _ h => h
  | a :: as => by
    unfold buildAssocs
    exact (build_safe hc assoc_fine).bind fun _ =>
      (Safe.pre attachTo_safe fun _ h => h.1).bind fun _ => (buildAssocs_safe hc as).bind fun _ => Safe.pure fun _ h => h

theorem elementAssocs_safe (hc : BinCfg c) {n : Nat} {d : Desc} :
    Safe (Inv c n) (elementAssocs (F := F) c d) (fun _ => Inv c n) E := fun f hf => buildAssocs_safe hc _ f hf

theorem setSig_length (i : Nat) : (as : List Assoc) → (setSig i as).length = as.length
  | [] => rfl
  | [_] => rfl
  | a :: b :: bs => by
    have h : setSig i (a :: b :: bs) = a :: setSig i (b :: bs) := rfl
    rw [h, List.length_cons, setSig_length i (b :: bs)]
    rfl

/-- An element as a factor: its value is the last one. -/
theorem factor_safe (hc : BinCfg c) {n : Nat} {d : Desc} (hd : readable c.compressed d = true) {t : Ast} (ht : factorOf t = some d) :
    Safe (Inv c n) (visit (F := F) c t) (fun _ f => Inv c n f ∧ ∀ e, d.entry = .b e → LastOk c e.unit f) E := by
  obtain ⟨e, he⟩ : ∃ e, d.entry = .b e := by
    unfold readable at hd
    split at hd
    · exact ⟨_, ‹_›⟩
    · cases hd
  have key : ∀ e', d.entry = .b e' → e' = e := fun e' h => by rw [he] at h; cases h; rfl
  cases t with
  | element d' np =>
    cases np with
    | true => cases ht
    | false =>
      cases ht
      unfold visit
      refine (elementAssocs_safe hc).bind fun is => (buildElement_safe hc hd).bind fun i => ?_
      exact (attachAll_last is).conseq (fun f h => ⟨h.1, h.2 e he⟩) (fun _ f h => ⟨h.1, fun e' h' => key e' h' ▸ h.2⟩) fun _ h => h
  | e031021 d' =>
    cases ht
    unfold visit
    refine (buildElement_safe hc hd).bind fun i => Safe.modify fun f h => ⟨{ h.1 with assoc := ?_ }, h.2⟩
    rw [setSig_length]
    exact h.1.assoc
  | _ => cases ht

theorem NotText.eq_calm {v w : Val F} (h : NotText v) : ¬ (ifaceEq v w).crashed := by
  cases v <;> cases w <;> first | exact fun h => h | exact absurd rfl (h _)

theorem allEqual_calm {v : Val F} (h : NotText v) : (ws : List (Val F)) → ¬ (allEqual v ws).crashed
  | [] => fun h => h
  | w :: ws => by
    unfold allEqual
    have := NotText.eq_calm (w := w) h
    cases hv : ifaceEq v w with
    | ok b =>
      cases b with
      | true => exact allEqual_calm h ws
      | false => exact fun h => h
    | err e => exact fun h => h
    | panic s => rw [hv] at this; exact absurd trivial this
    | diverge => rw [hv] at this; exact absurd trivial this

theorem LastOk.index {u : Unit'} {f : State F} (h : LastOk c u f) :
    ∃ col, Gobufr.index f.cols (f.cols.length - 1) = .ok col ∧ (c.compressed = true → u ≠ .string → ∀ v ∈ col.vals, NotText v) := by
  obtain ⟨col, h1, h2⟩ := h
  refine ⟨col, ?_, h2⟩
  have hl : f.cols ≠ [] := by rintro h; rw [h] at h1; cases h1
  have := List.length_pos_iff.2 hl
  rw [List.getLast?_eq_getElem?] at h1
  unfold Gobufr.index
  rw [if_neg (by omega), show ((f.cols.length : Int) - 1).toNat = f.cols.length - 1 by omega, h1]

theorem delayed_safe (hc : BinCfg c) {n : Nat} {u : Unit'} (hu : c.compressed = true → u ≠ .string) {factor block : M (State F) Unit}
    (hf : Safe (Inv c n) factor (fun _ f => Inv c n f ∧ LastOk c u f) E) (hb : Safe (Inv c n) block (fun _ => Inv c n) E) :
    Safe (Inv c n) (delayed factor block) (fun _ => Inv c n) E := by
  unfold delayed
  have hlen : ∀ f : State F, Inv c n f → f.len = .ok f.cols.length := by
    intro f hf
    unfold State.len
    rw [if_neg]
    rw [hf.subsets]
    intro h
    split at h
    · rename_i hcomp
      have := hc.subsets hcomp
      have h2 := Option.some.inj h
      omega
    · cases h
  refine hf.bind fun _ => Safe.bind (Q := fun _ f => Inv c n f ∧ LastOk c u f) (Safe.look ?_ fun _ _ _ h => h) fun same => Safe.ite (fun _ => Safe.fail) fun _ => ?_
  · rintro f ⟨hi, hl⟩
    unfold State.lastEqual
    have hs := hi.subsets
    cases hcomp : c.compressed with
    | false =>
      rw [hcomp] at hs
      rw [hs]
      exact fun h => h
    | true =>
      rw [hcomp] at hs
      rw [hs]
      obtain ⟨col, h1, h2⟩ := hl.index
      simp only [if_true, h1]
      show ¬ (match col.vals with | [] => _ | v :: vs => _ : Outcome Bool).crashed
      cases hv : col.vals with
      | nil => exact fun h => h
      | cons v vs => exact allEqual_calm (h2 hcomp (hu hcomp) v (by rw [hv]; exact List.mem_cons_self)) vs
  · refine Safe.bind (Q := fun (k : Int) f => (Inv c n f ∧ LastOk c u f) ∧ k = f.cols.length) (Safe.look ?_ ?_) fun k => ?_
    · rintro f ⟨hi, -⟩
      rw [hlen f hi]
      exact fun h => h
    · rintro a f ha ⟨hi, hl⟩
      rw [hlen f hi] at ha
      cases ha
      exact ⟨⟨hi, hl⟩, rfl⟩
    · refine Safe.bind (Q := fun _ f => Inv c n f) (Safe.look ?_ fun _ _ _ h => h.1.1) fun v =>
        Safe.bind (Q := fun _ f => Inv c n f) (Safe.lift ?_ fun _ _ _ h => h) fun m => Safe.repeatM hb m
      · rintro f ⟨⟨hi, hl⟩, rfl⟩
        obtain ⟨col, h1, h2⟩ := hl.index
        unfold State.value
        rw [h1]
        exact fun h => h
      · unfold Cell.uintValue
        split <;> exact fun h => h

theorem popAssoc_safe {n : Nat} (hn : n ≠ 0) : Safe (Inv (F := F) c n) popAssoc (fun _ => Inv c (n - 1)) E := by
  intro f hf
  have hl := hf.assoc
  have h : popAssoc f = (.ok (), { f with assoc := f.assoc.dropLast }) := by
    unfold popAssoc
    rw [if_neg]
    rw [List.isEmpty_iff]
    intro h
    rw [h] at hl
    simp at hl
    exact hn hl
  rw [h]
  exact { hf with assoc := by rw [List.length_dropLast]; omega }

mutual
/-- Decoding a harmless node does not crash. -/
theorem visit_safe (hc : BinCfg c) : (t : Ast) → (n k : Nat) → harmless c.compressed t n = some k →
    Safe (Inv c n) (visit (F := F) c t) (fun _ => Inv c k) E
  | .base _ _, _, _, h => by cases h
  | .element d np, n, k, h => by
    unfold harmless at h
    split at h
    · rename_i hd
      cases h
      cases np with
      | true => unfold visit; exact Safe.pure fun _ h => h
      | false =>
        exact (factor_safe hc (t := .element d false) (by simpa using hd) rfl).post fun _ _ h => h.1
    · cases h
  | .e031021 d, n, k, h => by
    unfold harmless at h
    split at h
    · rename_i hd
      cases h
      exact (factor_safe hc hd (t := .e031021 d) rfl).post fun _ _ h => h.1
    · cases h
  | .fixedRepl d ms, n, k, h => by
    unfold harmless at h
    split at h
    · rename_i k' hk
      split at h
      · cases h
        unfold visit
        exact Safe.repeatM ((visitL_safe hc ms n k' hk).post fun _ _ h => h.le ‹_›) _
      · cases h
    · cases h
  | .delayedRepl _ [], _, _, h => by unfold harmless at h; cases h
  | .delayedRepl _ (m :: ms), n, k, h => by
    unfold harmless at h
    split at h
    · rename_i d k' hd hk
      split at h
      · rename_i hcd
        cases h
        simp only [Bool.and_eq_true, decide_eq_true_eq] at hcd
        unfold visit
        unfold countable at hcd
        split at hcd
        · rename_i e he
          simp only [Bool.and_eq_true, Bool.or_eq_true, Bool.not_eq_true', bne_iff_ne, ne_eq] at hcd
          refine delayed_safe hc (u := e.unit) (fun h => hcd.1.2.resolve_left (by simp [h])) ?_
            ((visitL_safe hc ms n k' hk).post fun _ _ h => h.le hcd.2)
          exact (factor_safe hc hcd.1.1 hd).post fun _ _ h => ⟨h.1, h.2 e he⟩
        · exact absurd hcd.1 nofun
      · cases h
    · cases h
  | .sequence _ ms, n, k, h => by
    unfold harmless at h
    unfold visit
    exact visitL_safe hc ms n k h
  | .nbitsOffset _, n, k, h => by
    unfold harmless at h
    cases h
    unfold visit
    exact Safe.modify fun _ h => { h with }
  | .scaleOffset _, n, k, h => by
    unfold harmless at h
    cases h
    unfold visit
    exact Safe.modify fun _ h => { h with }
  | .newRefval d ms, n, k, h => by
    unfold harmless at h
    unfold visit
    split at h
    · rename_i hd
      cases h
      refine Safe.ite (fun h1 => ?_) fun _ => Safe.pure fun _ h => h
      rcases ms with _ | ⟨m, ms⟩
      · exact Safe.pure fun _ h => h
      · exact (hd.elim (absurd · h1) nofun)
    · cases h
  | .assocField d ms, n, k, h => by
    unfold harmless at h
    unfold visit
    by_cases hd : d.id.Y = 0
    · rw [if_neg (fun h => h hd)] at h
      by_cases hn : n = 0
      · rw [if_pos hn] at h
        cases h
      · rw [if_neg hn] at h
        rw [if_pos hd]
        refine Safe.bind (Q := fun _ => Inv c (n - 1)) ?_ fun _ => visitL_safe hc ms (n - 1) k h
        exact popAssoc_safe hn
    · rw [if_pos hd] at h
      rw [if_neg hd]
      refine Safe.bind (Q := fun _ => Inv c (n + 1)) (Safe.modify fun f h => { h with assoc := ?_ }) fun _ => visitL_safe hc ms (n + 1) k h
      rw [List.length_append]
      exact Nat.add_le_add_right h.assoc 1
  | .insertString d, n, k, h => by
    unfold harmless at h
    unfold visit
    split at h
    · rename_i hd
      cases h
      have hi : Fine (F := F) c (Vis.plainInfo .string (d.id.Y * 8)) := plain_fine (fun _ => by omega) (fun _ => nofun) fun _ => nofun
      exact (build_safe hc hi).bind fun _ => Safe.pure fun _ h => h.1
    · cases h
  | .skipLocal d ms, n, k, h => by
    unfold harmless at h
    unfold visit
    split at h
    · cases h
    · rename_i hh
      simp only [Bool.or_eq_true, not_or, Bool.not_eq_true] at hh
      cases h
      rcases ms with _ | ⟨m, ms⟩
      · exact absurd hh.2 nofun
      · have hi : Fine (F := F) c (Vis.plainInfo .binary d.id.Y) :=
          plain_fine nofun (fun h => absurd (hh.1.symm.trans h) nofun) fun h => absurd (hh.1.symm.trans h) nofun
        exact (build_safe hc hi).bind fun _ => Safe.pure fun _ h => h.1
  | .setStringLength d, n, k, h => by
    unfold harmless at h
    unfold visit
    split at h
    · cases h
      exact Safe.modify fun _ h => { h with string := by show 0 ≤ d.id.Y * 8; omega }
    · cases h
  | .modifyPacking _, n, k, h => by
    unfold harmless at h
    cases h
    unfold visit
    exact Safe.modify fun _ h => { h with }
  | .dataNotPresent _ ms, n, k, h => by
    unfold harmless at h
    unfold visit
    exact visitL_safe hc ms n k h
  | .cancelBackRef _, n, k, h => by
    unfold harmless at h
    cases h
    unfold visit
    exact Safe.modify fun _ h => { h with }
  | .cancelBitmap _, n, k, h => by
    unfold harmless at h
    cases h
    unfold visit cancelBitmap
    exact Safe.modify fun _ h => { h with }
  | .assessment _ _ _ _, _, _, h => by cases h
  | .marker _, _, _, h => by cases h
  | .bitmap _ _, _, _, h => by cases h
/-- Decoding harmless nodes does not crash. -/
theorem visitL_safe (hc : BinCfg c) : (ts : List Ast) → (n k : Nat) → harmlessL c.compressed ts n = some k →
    Safe (Inv c n) (visitL (F := F) c ts) (fun _ => Inv c k) E
  | [], n, k, h => by
    unfold harmlessL at h
    cases h
    unfold visitL
    exact Safe.pure fun _ h => h
  | t :: ts, n, k, h => by
    unfold harmlessL at h
    unfold visitL
    split at h
    · rename_i k' hk
      exact (visit_safe hc t n k' hk).bind fun _ => visitL_safe hc ts k' k h
    · cases h
end

end Flat

end Gobufr
