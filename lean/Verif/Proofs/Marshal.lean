import Verif.Spec.Marshal
import Verif.Proofs.Binary
import Verif.Proofs.Header
import Verif.Proofs.Encode

/-!
# Lemmas about JSON output
-/

namespace Gobufr
open Spec

variable {F : Type} {α : Type}

namespace Marshal

/-! ## Slices -/

theorem elements_ok {f : α → Outcome (Doc F)} : ∀ {l : List α} {js : List (Doc F)},
    elements f l = .ok js ↔ js.length = l.length ∧ ∀ p ∈ l.zip js, f p.1 = .ok p.2
  | [], js => by
    simp only [elements, Outcome.ok.injEq, List.length_nil, List.zip_nil_left, List.not_mem_nil, false_imp_iff, implies_true, and_true]
    exact ⟨fun h => h ▸ rfl, fun h => (List.length_eq_zero_iff.1 h).symm⟩
  | x :: xs, js => by
    unfold elements
    rw [Outcome.bind_eq_ok]
    constructor
    · rintro ⟨j, h1, h⟩
      rw [Outcome.bind_eq_ok] at h
      obtain ⟨ks, h2, h⟩ := h
      cases h
      obtain ⟨h3, h4⟩ := elements_ok.1 h2
      refine ⟨by simp [h3], fun p hp => ?_⟩
      rw [List.zip_cons_cons, List.mem_cons] at hp
      rcases hp with rfl | hp
      · exact h1
      · exact h4 p hp
    · rintro ⟨h1, h2⟩
      match js, h1 with
      | j :: ks, h1 =>
        refine ⟨j, h2 (x, j) (by simp), ?_⟩
        rw [Outcome.bind_eq_ok]
        exact ⟨ks, elements_ok.2 ⟨by simpa using h1, fun p hp => h2 p (by simp [hp])⟩, rfl⟩

/-- Every outcome is a value or an error. -/
def Clean (o : Outcome α) : Prop := (∃ a, o = .ok a) ∨ ∃ e, o = .err e

theorem elements_clean {f : α → Outcome (Doc F)} : ∀ {l : List α}, (∀ x ∈ l, Clean (f x)) → Clean (elements f l)
  | [], _ => .inl ⟨[], rfl⟩
  | x :: xs, h => by
    unfold elements
    rcases h x (by simp) with ⟨j, hj⟩ | ⟨e, he⟩
    · rw [hj]
      rcases elements_clean (f := f) (l := xs) (fun y hy => h y (by simp [hy])) with ⟨js, hjs⟩ | ⟨e, he⟩
      · rw [hjs]; exact .inl ⟨_, rfl⟩
      · rw [he]; exact .inr ⟨_, rfl⟩
    · rw [he]; exact .inr ⟨_, rfl⟩

theorem elements_some {f : α → Outcome (Doc F)} : ∀ {l : List α}, (∃ js, elements f l = .ok js) ↔ ∀ x ∈ l, ∃ j, f x = .ok j
  | [] => by simp [elements]
  | x :: xs => by
    unfold elements
    simp only [Outcome.bind_eq_ok, List.mem_cons, forall_eq_or_imp, ← elements_some (l := xs)]
    constructor
    · rintro ⟨js, j, h1, ks, h2, -⟩
      exact ⟨⟨j, h1⟩, ⟨ks, h2⟩⟩
    · rintro ⟨⟨j, h1⟩, ⟨ks, h2⟩⟩
      exact ⟨_, j, h1, ks, h2, rfl⟩

theorem made_ok {f : α → Outcome (Doc F)} {l : List α} {j : Doc F} :
    made f l = .ok j ↔ ∃ js, j = .arr js ∧ elements f l = .ok js := by
  unfold made
  rw [Outcome.bind_eq_ok]
  constructor
  · rintro ⟨js, h1, h2⟩
    cases h2
    exact ⟨js, rfl, h1⟩
  · rintro ⟨js, rfl, h⟩
    exact ⟨js, h, rfl⟩

theorem appended_ok {f : α → Outcome (Doc F)} {l : List α} {j : Doc F} (hl : l ≠ []) :
    appended f l = .ok j ↔ ∃ js, j = .arr js ∧ elements f l = .ok js := by
  unfold appended
  rw [Outcome.bind_eq_ok]
  constructor
  · rintro ⟨js, h1, h2⟩
    cases js with
    | nil => exact absurd (List.length_eq_zero_iff.1 (elements_ok.1 h1).1.symm) hl
    | cons k ks => cases h2; exact ⟨_, rfl, h1⟩
  · rintro ⟨js, rfl, h⟩
    refine ⟨js, h, ?_⟩
    cases js with
    | nil => exact absurd (List.length_eq_zero_iff.1 (elements_ok.1 h).1.symm) hl
    | cons k ks => rfl

theorem appended_nil {f : α → Outcome (Doc F)} : appended f [] = .ok .null := rfl

theorem made_some {f : α → Outcome (Doc F)} {l : List α} : (∃ j, made f l = .ok j) ↔ ∀ x ∈ l, ∃ j, f x = .ok j := by
  rw [← elements_some]
  constructor
  · rintro ⟨j, h⟩
    obtain ⟨js, -, h⟩ := made_ok.1 h
    exact ⟨js, h⟩
  · rintro ⟨js, h⟩
    exact ⟨_, made_ok.2 ⟨js, rfl, h⟩⟩

theorem appended_some {f : α → Outcome (Doc F)} {l : List α} : (∃ j, appended f l = .ok j) ↔ ∀ x ∈ l, ∃ j, f x = .ok j := by
  rw [← elements_some]
  rcases eq_or_ne l [] with rfl | hl
  · exact ⟨fun _ => ⟨[], rfl⟩, fun _ => ⟨.null, rfl⟩⟩
  · constructor
    · rintro ⟨j, h⟩
      obtain ⟨js, -, h⟩ := (appended_ok hl).1 h
      exact ⟨js, h⟩
    · rintro ⟨js, h⟩
      exact ⟨_, (appended_ok hl).2 ⟨js, rfl, h⟩⟩

theorem made_clean {f : α → Outcome (Doc F)} {l : List α} (h : ∀ x ∈ l, Clean (f x)) : Clean (made f l) := by
  unfold made
  rcases elements_clean h with ⟨js, h⟩ | ⟨e, h⟩ <;> rw [h]
  · exact .inl ⟨_, rfl⟩
  · exact .inr ⟨_, rfl⟩

theorem appended_clean {f : α → Outcome (Doc F)} {l : List α} (h : ∀ x ∈ l, Clean (f x)) : Clean (appended f l) := by
  unfold appended
  rcases elements_clean h with ⟨js, h⟩ | ⟨e, h⟩ <;> rw [h]
  · cases js <;> exact .inl ⟨_, rfl⟩
  · exact .inr ⟨_, rfl⟩

theorem call_ok {o : Outcome (Doc F)} {j : Doc F} : call o = .ok j ↔ o = .ok j := by
  cases o <;> simp [call, Outcome.wrapErr]

theorem call_clean {o : Outcome (Doc F)} (h : Clean o) : Clean (call o) := by
  rcases h with ⟨a, rfl⟩ | ⟨e, rfl⟩
  · exact .inl ⟨_, rfl⟩
  · exact .inr ⟨_, rfl⟩

/-! ## Base64 -/

theorem sextet_eq {n : Nat} (h : n < 64) : alphabet[n]? = some (sextet n) := by
  revert n
  decide

theorem alphabet_ne : ∀ g < 64, alphabet[g]? ≠ some (ch '=') := by decide

theorem alphabet_inj {a b : Nat} (ha : a < 64) (hb : b < 64) (h : alphabet[a]? = alphabet[b]?) : a = b := by
  have : ∀ a < 64, ∀ b < 64, alphabet[a]? = alphabet[b]? → a = b := by decide +kernel
  exact this a ha b hb h

theorem natBits_join (m n a b : Nat) (hb : b < 2 ^ n) : natBits (m + n) (a % 2 ^ m * 2 ^ n + b) = natBits m a ++ natBits n b := by
  have hp : 0 < 2 ^ n := Nat.two_pow_pos n
  rw [natBits_add, Nat.add_comm, Nat.add_mul_div_right _ _ hp, Nat.div_eq_of_lt hb, Nat.zero_add, natBits_mod]
  congr 1
  exact natBits_congr (by rw [Nat.add_mul_mod_self_right])

theorem base64_spec : ∀ s : List UInt8, AsBase64 s (base64 s)
  | [] => ⟨[], 0, 0, by decide, by decide, by simp, rfl, rfl, rfl⟩
  | [a] => by
    have ha := a.toNat_lt
    refine ⟨[a.toNat / 4, a.toNat % 4 * 16], 4, 2, by decide, by decide, ?_, ?_, ?_, by simp [base64]⟩
    · simp only [List.mem_cons, List.not_mem_nil, or_false, forall_eq_or_imp, forall_eq]
      omega
    · have h1 := natBits_add 6 2 a.toNat
      have h2 := natBits_join 2 4 a.toNat 0 (by decide)
      simp only [List.flatMap_cons, List.flatMap_nil, List.append_nil]
      rw [show a.toNat % 4 * 16 = a.toNat % 2 ^ 2 * 2 ^ 4 + 0 from rfl, h2, h1, List.append_assoc]
      rfl
    · simp only [base64, List.map_cons, List.map_nil, List.cons_append, List.nil_append]
      rw [sextet_eq (by omega), sextet_eq (by omega)]
      rfl
  | [a, b] => by
    have ha := a.toNat_lt
    have hb := b.toNat_lt
    refine ⟨[a.toNat / 4, a.toNat % 4 * 16 + b.toNat / 16, b.toNat % 16 * 4], 2, 1, by decide, by decide, ?_, ?_, ?_, by simp [base64]⟩
    · simp only [List.mem_cons, List.not_mem_nil, or_false, forall_eq_or_imp, forall_eq]
      omega
    · have h1 := natBits_add 6 2 a.toNat
      have h2 := natBits_join 2 4 a.toNat (b.toNat / 16) (by omega)
      have h3 := natBits_add 4 4 b.toNat
      have h4 := natBits_join 4 2 b.toNat 0 (by decide)
      simp only [List.flatMap_cons, List.flatMap_nil, List.append_nil]
      rw [show b.toNat % 16 * 4 = b.toNat % 2 ^ 4 * 2 ^ 2 + 0 from rfl, h4, show a.toNat % 4 * 16 = a.toNat % 2 ^ 2 * 2 ^ 4 from rfl, h2,
        h1, h3]
      simp only [List.append_assoc]
      rfl
    · simp only [base64, List.map_cons, List.map_nil, List.cons_append, List.nil_append]
      rw [sextet_eq (by omega), sextet_eq (by omega), sextet_eq (by omega)]
      rfl
  | a :: b :: c :: rest => by
    have ha := a.toNat_lt
    have hb := b.toNat_lt
    have hc := c.toNat_lt
    obtain ⟨gs, z, e, hz, he, hg, hbits, hchars, hlen⟩ := base64_spec rest
    refine ⟨[a.toNat / 4, a.toNat % 4 * 16 + b.toNat / 16, b.toNat % 16 * 4 + c.toNat / 64, c.toNat % 64] ++ gs, z, e, hz, he, ?_, ?_,
      ?_, ?_⟩
    · intro g hgm
      rcases List.mem_append.1 hgm with h | h
      · simp only [List.mem_cons, List.not_mem_nil, or_false] at h
        omega
      · exact hg g h
    · have h1 := natBits_add 6 2 a.toNat
      have h2 := natBits_join 2 4 a.toNat (b.toNat / 16) (by omega)
      have h3 := natBits_add 4 4 b.toNat
      have h4 := natBits_join 4 2 b.toNat (c.toNat / 64) (by omega)
      have h5 := natBits_add 2 6 c.toNat
      have h6 := natBits_mod 6 c.toNat
      simp only [List.flatMap_append, List.flatMap_cons, List.flatMap_nil, List.append_nil]
      rw [show b.toNat % 16 * 4 = b.toNat % 2 ^ 4 * 2 ^ 2 from rfl, h4, show a.toNat % 4 * 16 = a.toNat % 2 ^ 2 * 2 ^ 4 from rfl, h2,
        h1, h3, h5, show c.toNat % 64 = c.toNat % 2 ^ 6 from rfl, h6, hbits]
      simp only [List.append_assoc]
    · simp only [base64, List.map_cons, List.cons_append, List.nil_append]
      rw [sextet_eq (by omega), sextet_eq (by omega), sextet_eq (by omega), sextet_eq (by omega), hchars]
    · simp only [base64, List.length_cons]
      omega

theorem replicate_of_prefix {α : Type} {x y : List α} {a : α} {m n : Nat} (hx : a ∉ x) (hy : a ∉ y)
    (h : x ++ List.replicate m a = y ++ List.replicate n a) : x = y := by
  induction x generalizing y with
  | nil =>
    cases y with
    | nil => rfl
    | cons b y =>
      cases m with
      | zero => simp at h
      | succ m =>
        simp only [List.nil_append, List.replicate_succ, List.cons_append, List.cons.injEq] at h
        exact absurd (h.1 ▸ List.mem_cons_self) hy
  | cons b x ih =>
    cases y with
    | nil =>
      cases n with
      | zero => simp at h
      | succ n =>
        simp only [List.nil_append, List.replicate_succ, List.cons_append, List.cons.injEq] at h
        exact absurd (h.1 ▸ List.mem_cons_self) hx
    | cons c y =>
      simp only [List.cons_append, List.cons.injEq] at h
      rw [h.1, ih (fun k => hx (List.mem_cons_of_mem _ k)) (fun k => hy (List.mem_cons_of_mem _ k)) h.2]

theorem map_alphabet_inj : ∀ {x y : List Nat}, (∀ g ∈ x, g < 64) → (∀ g ∈ y, g < 64) →
    x.map (fun g => alphabet[g]?) = y.map (fun g => alphabet[g]?) → x = y
  | [], [], _, _, _ => rfl
  | [], _ :: _, _, _, h => by simp at h
  | _ :: _, [], _, _, h => by simp at h
  | a :: x, b :: y, hx, hy, h => by
    simp only [List.map_cons, List.cons.injEq] at h
    rw [alphabet_inj (hx a (by simp)) (hy b (by simp)) h.1,
      map_alphabet_inj (fun g hg => hx g (by simp [hg])) (fun g hg => hy g (by simp [hg])) h.2]

theorem bytes_flat_inj : ∀ {s t : List UInt8},
    s.flatMap (fun b => natBits 8 b.toNat) = t.flatMap (fun b => natBits 8 b.toNat) → s = t
  | [], [], _ => rfl
  | [], b :: t, h => by
    have := congrArg List.length h
    simp only [List.flatMap_cons, List.flatMap_nil, List.length_append, natBits_length, List.length_nil] at this
    omega
  | a :: s, [], h => by
    have := congrArg List.length h
    simp only [List.flatMap_cons, List.flatMap_nil, List.length_append, natBits_length, List.length_nil] at this
    omega
  | a :: s, b :: t, h => by
    simp only [List.flatMap_cons] at h
    obtain ⟨h1, h2⟩ := List.append_inj h (by simp)
    rw [bytes_flat_inj h2]
    congr 1
    have := congrArg bitsVal h1
    rw [bitsVal_natBits, bitsVal_natBits, Nat.mod_eq_of_lt a.toNat_lt, Nat.mod_eq_of_lt b.toNat_lt] at this
    exact UInt8.toNat_inj.1 this

theorem flat_length (s : List UInt8) : (s.flatMap fun b => natBits 8 b.toNat).length = 8 * s.length := by
  induction s with
  | nil => rfl
  | cons a s ih => simp only [List.flatMap_cons, List.length_append, natBits_length, ih, List.length_cons]; omega

/-- Base64 determines the bytes. -/
theorem asBase64_inj {s s' : List UInt8} {t : GoString} (h : AsBase64 s t) (h' : AsBase64 s' t) : s = s' := by
  obtain ⟨gs, z, e, hz, he, hg, hb, hc, -⟩ := h
  obtain ⟨gs', z', e', hz', he', hg', hb', hc', -⟩ := h'
  have ne : ∀ {l : List Nat}, (∀ g ∈ l, g < 64) → some (ch '=') ∉ l.map (fun g => alphabet[g]?) := by
    intro l hl hm
    obtain ⟨g, h1, h2⟩ := List.mem_map.1 hm
    exact alphabet_ne g (hl g h1) h2
  have hgs := map_alphabet_inj hg hg' (replicate_of_prefix (ne hg) (ne hg') (hc.symm.trans hc'))
  subst hgs
  have e := hb.symm.trans hb'
  have hl := congrArg List.length e
  simp only [List.length_append, flat_length, List.length_replicate] at hl
  exact bytes_flat_inj (List.append_inj e (by rw [flat_length, flat_length]; omega)).1

/-! ## Values -/

theorem value_shown {finite : F → Bool} {v : Val F} {j : Doc F} (hv : Proper v) (h : value finite v = .ok j) : Shown AsBase64 v j := by
  cases v with
  | nil => cases h; exact .missing
  | uint v => cases h; exact .uint v
  | int v => cases h; exact .int v
  | float f =>
    by_cases hf : finite f = true
    · simp only [value, hf, if_true] at h
      cases h; exact .float f
    · simp only [value, hf] at h
      cases h
  | bool b => cases h; exact .bool b
  | str s => exact hv.elim
  | bytes b => cases h; exact .text (base64_spec b)
  | binary b =>
    cases b with
    | none => cases h; exact .noBits
    | some b =>
      cases h
      obtain ⟨l, h1, h2⟩ := hv
      obtain ⟨bs, n⟩ := b
      simp only at h1 h2
      subst h2
      have e := EncodeSpec.packed_inj h1 (packed_packBits l)
      subst e
      rw [string_pack]
      exact .bits h1

theorem value_clean (finite : F → Bool) (v : Val F) : Clean (value finite v) := by
  unfold value
  split <;> try exact .inl ⟨_, rfl⟩
  split
  · exact .inl ⟨_, rfl⟩
  · exact .inr ⟨_, rfl⟩

theorem value_some (finite : F → Bool) (v : Val F) : (∃ j, value finite v = .ok j) ↔ ∀ f, v = .float f → finite f = true := by
  cases v with
  | float f =>
    by_cases hf : finite f = true
    · simp [value, hf]
    · simp [value, hf]
  | binary b => cases b <;> simp [value]
  | _ => simp [value]

theorem digits_inj : ∀ {l l' : List Bool}, digits l = digits l' → l = l'
  | [], [], _ => rfl
  | [], _ :: _, h => by simp [digits] at h
  | _ :: _, [], h => by simp [digits] at h
  | a :: l, b :: l', h => by
    simp only [digits, List.map_cons, List.cons.injEq] at h
    rw [digits_inj (l := l) (l' := l') h.2]
    congr 1
    revert h
    cases a <;> cases b <;> simp [ch]

theorem shown_bits {text : List UInt8 → GoString → Prop} {b : Binary} {j : Doc F} (h : Shown text (.binary (some b)) j) :
    ∃ l, Packed l b.b ∧ b.nbits = l.length ∧ j = .str (digits l) := by
  cases h with
  | bits h => exact ⟨_, h, rfl, rfl⟩

theorem shown_bytes {text : List UInt8 → GoString → Prop} {s : List UInt8} {j : Doc F} (h : Shown text (.bytes s) j) :
    ∃ t, text s t ∧ j = .str t := by
  cases h with
  | text h => exact ⟨_, h, rfl⟩

theorem shown_uint {text : List UInt8 → GoString → Prop} {v : Nat} {j : Doc F} (h : Shown text (.uint v) j) : j = .int v := by
  cases h; rfl

theorem shown_int {text : List UInt8 → GoString → Prop} {v : Int} {j : Doc F} (h : Shown text (.int v) j) : j = .int v := by
  cases h; rfl

theorem shown_float {text : List UInt8 → GoString → Prop} {v : F} {j : Doc F} (h : Shown text (.float v) j) : j = .num v := by
  cases h; rfl

theorem shown_bool {text : List UInt8 → GoString → Prop} {v : Bool} {j : Doc F} (h : Shown text (.bool v) j) : j = .bool v := by
  cases h; rfl

theorem shown_inj {v w : Val F} {j : Doc F} (hv : Shown AsBase64 v j) (hw : Shown AsBase64 w j) (hk : SameKind v w) : v = w := by
  match v, w, hk with
  | .nil, .nil, _ => rfl
  | .uint a, .uint b, _ =>
    have h := (shown_uint hv).symm.trans (shown_uint hw)
    injection h with h
    rw [Int.ofNat_inj.1 h]
  | .int a, .int b, _ =>
    have h := (shown_int hv).symm.trans (shown_int hw)
    injection h with h
    rw [h]
  | .float a, .float b, _ =>
    have h := (shown_float hv).symm.trans (shown_float hw)
    injection h with h
    rw [h]
  | .bool a, .bool b, _ =>
    have h := (shown_bool hv).symm.trans (shown_bool hw)
    injection h with h
    rw [h]
  | .bytes a, .bytes b, _ =>
    obtain ⟨t, h1, h2⟩ := shown_bytes hv
    obtain ⟨t', h1', h2'⟩ := shown_bytes hw
    have h := h2.symm.trans h2'
    injection h with h
    subst h
    rw [asBase64_inj h1 h1']
  | .binary none, .binary none, _ => rfl
  | .binary (some a), .binary (some b), _ =>
    obtain ⟨l, h1, h2, h3⟩ := shown_bits hv
    obtain ⟨l', h1', h2', h3'⟩ := shown_bits hw
    have h := h3.symm.trans h3'
    injection h with h
    have h := digits_inj h
    subst h
    obtain ⟨bs, n⟩ := a
    obtain ⟨bs', n'⟩ := b
    simp only at h1 h2 h1' h2'
    rw [EncodeSpec.packed_inj h1 h1', h2, h2']

/-! ## Documents -/

theorem listed_of {one : α → Doc F → Prop} {f : α → Outcome (Doc F)} {l : List α} {js : List (Doc F)}
    (h : elements f l = .ok js) (hone : ∀ x ∈ l, ∀ j, f x = .ok j → one x j) : Listed one l (.arr js) := by
  obtain ⟨h1, h2⟩ := elements_ok.1 h
  exact ⟨js, rfl, h1, fun p hp => hone p.1 (List.of_mem_zip hp).1 p.2 (h2 p hp)⟩

theorem listed_map {one : β → Doc F → Prop} {g : α → β} {l : List α} {j : Doc F} (h : Listed one (l.map g) j) :
    Listed (fun x => one (g x)) l j := by
  obtain ⟨js, rfl, h1, h2⟩ := h
  refine ⟨js, rfl, by simpa using h1, fun p hp => ?_⟩
  have : (g p.1, p.2) ∈ (l.map g).zip js := by
    rw [List.zip_map_left]
    exact List.mem_map.2 ⟨p, hp, rfl⟩
  exact h2 _ this

theorem field_shown {finite : F → Bool} {f : Field F} {j : Doc F} (hv : ∀ v ∈ fieldItems f, Proper v)
    (hp : ∀ p, f.value = .payload p → p.subsets ≠ []) (h : field finite f = .ok j) : FieldShown AsBase64 f j := by
  unfold field at h
  unfold fieldItems at hv
  unfold FieldShown
  cases hf : f.value with
  | val v =>
    rw [hf] at h hv
    exact value_shown (hv v (by simp)) h
  | template ut =>
    rw [hf] at h
    obtain ⟨js, rfl, h'⟩ := made_ok.1 (call_ok.1 h)
    exact listed_of h' fun x _ j hj => (Outcome.ok.inj hj).symm
  | payload p =>
    rw [hf] at h hv
    obtain ⟨js, rfl, h'⟩ := (appended_ok (hp p hf)).1 (call_ok.1 h)
    refine listed_of h' fun s hs j hj => ?_
    obtain ⟨js, rfl, hj'⟩ := made_ok.1 (call_ok.1 hj)
    refine listed_map (g := fun c : Cell F => c.v) (listed_of hj' fun v hm j hj => value_shown (hv v ?_) hj)
    simp only [List.mem_flatMap]
    exact ⟨s, hs, hm⟩

theorem message_shown {finite : F → Bool} {m : Message F} {j : Doc F} (hv : ∀ v ∈ items m, Proper v) (hm : NothingEmpty m)
    (h : message finite m = .ok j) : MessageShown AsBase64 m j := by
  obtain ⟨js, rfl, h'⟩ := (appended_ok hm.1).1 h
  refine listed_of h' fun s hs j hj => ?_
  obtain ⟨hne, hp⟩ := hm.2 s hs
  obtain ⟨js, rfl, hj'⟩ := (appended_ok hne).1 (call_ok.1 hj)
  refine listed_of hj' fun f hf j hj => field_shown (fun v hvm => hv v ?_) (hp f hf) (call_ok.1 hj)
  simp only [items, List.mem_flatMap]
  exact ⟨s, hs, f, hf, hvm⟩

theorem field_clean (finite : F → Bool) (f : Field F) : Clean (field finite f) := by
  unfold field
  split
  · exact value_clean _ _
  · exact call_clean (made_clean fun _ _ => .inl ⟨_, rfl⟩)
  · exact call_clean (appended_clean fun _ _ => call_clean (made_clean fun _ _ => value_clean _ _))

theorem message_clean (finite : F → Bool) (m : Message F) : Clean (message finite m) :=
  appended_clean fun _ _ => call_clean (appended_clean fun _ _ => call_clean (field_clean _ _))

theorem call_some {o : Outcome (Doc F)} : (∃ j, call o = .ok j) ↔ ∃ j, o = .ok j := by simp only [call_ok]

theorem field_some (finite : F → Bool) (f : Field F) :
    (∃ j, field finite f = .ok j) ↔ ∀ x, .float x ∈ fieldItems f → finite x = true := by
  unfold field fieldItems
  cases f.value with
  | val v =>
    simp only [value_some, List.mem_singleton]
    exact ⟨fun h x hx => h x hx.symm, fun h x hx => h x hx.symm⟩
  | template ut =>
    simp only [call_some, template, made_some]
    simp
  | payload p =>
    simp only [call_some, payload, appended_some, subset, made_some, value_some, List.mem_flatMap]
    exact ⟨fun h x ⟨s, hs, hx⟩ => h s hs _ hx x rfl, fun h s hs v hv x hx => h x ⟨s, hs, hx ▸ hv⟩⟩

theorem message_some (finite : F → Bool) (m : Message F) :
    (∃ j, message finite m = .ok j) ↔ ∀ x, .float x ∈ items m → finite x = true := by
  unfold message section_
  simp only [appended_some, call_some, field_some, items, List.mem_flatMap]
  exact ⟨fun h x ⟨s, hs, f, hf, hx⟩ => h s hs f hf x hx, fun h s hs f hf x hx => h x ⟨s, hs, f, hf, hx⟩⟩

/-! ## The leaves of a document -/

mutual

def leaves : Doc F → List (Doc F)
  | .arr l => leavesL l
  | j => [j]

def leavesL : List (Doc F) → List (Doc F)
  | [] => []
  | j :: js => leaves j ++ leavesL js

end

/-- The values are shown one by one. -/
def Aligned (vs : List (Val F)) (js : List (Doc F)) : Prop :=
  js.length = vs.length ∧ ∀ p ∈ vs.zip js, Shown AsBase64 p.1 p.2

theorem Aligned.append {a b : List (Val F)} {x y : List (Doc F)} (h1 : Aligned a x) (h2 : Aligned b y) : Aligned (a ++ b) (x ++ y) := by
  refine ⟨by rw [List.length_append, List.length_append, h1.1, h2.1], fun p hp => ?_⟩
  rw [List.zip_append h1.1.symm, List.mem_append] at hp
  exact hp.elim (h1.2 p) (h2.2 p)

theorem Aligned.single {v : Val F} {j : Doc F} (h : Shown AsBase64 v j) : Aligned [v] (leaves j) := by
  have : leaves j = [j] := by cases h <;> rfl
  rw [this]
  refine ⟨rfl, fun p hp => ?_⟩
  simp only [List.zip_cons_cons, List.zip_nil_left, List.mem_singleton] at hp
  subst hp
  exact h

theorem aligned_list {g : α → List (Val F)} {one : α → Doc F → Prop} : ∀ {l : List α} {js : List (Doc F)}, js.length = l.length →
    (∀ p ∈ l.zip js, one p.1 p.2) → (∀ x ∈ l, ∀ j, one x j → Aligned (g x) (leaves j)) → Aligned (l.flatMap g) (leavesL js)
  | [], [], _, _, _ => ⟨rfl, by simp⟩
  | x :: l, j :: js, h1, h2, h3 => by
    rw [List.flatMap_cons, leavesL]
    exact (h3 x (by simp) j (h2 (x, j) (by simp))).append
      (aligned_list (by simpa using h1) (fun p hp => h2 p (by simp [hp])) fun x hx => h3 x (by simp [hx]))

theorem aligned_listed {g : α → List (Val F)} {one : α → Doc F → Prop} {l : List α} {j : Doc F} (h : Listed one l j)
    (hone : ∀ x ∈ l, ∀ j, one x j → Aligned (g x) (leaves j)) : Aligned (l.flatMap g) (leaves j) := by
  obtain ⟨js, rfl, h1, h2⟩ := h
  rw [leaves]
  exact aligned_list h1 h2 hone

theorem aligned_field {f : Field F} {j : Doc F} (h : FieldShown AsBase64 f j) : Aligned (fieldItems f) (leaves j) := by
  unfold FieldShown at h
  unfold fieldItems
  split at h
  · exact .single h
  · rw [← List.flatMap_singleton' (List.map _ _), List.flatMap_map]
    refine aligned_listed h fun x _ j hj => ?_
    subst hj
    exact .single (.int x)
  · refine aligned_listed h fun s _ j hj => ?_
    rw [← List.flatMap_singleton' (List.map _ _), List.flatMap_map]
    exact aligned_listed hj fun c _ j hj => .single hj

theorem aligned_message {m : Message F} {j : Doc F} (h : MessageShown AsBase64 m j) : Aligned (items m) (leaves j) :=
  aligned_listed h fun _ _ _ hj => aligned_listed hj fun _ _ _ hj => aligned_field hj

theorem aligned_inj : ∀ {a b : List (Val F)} {js : List (Doc F)}, Aligned a js → Aligned b js →
    (∀ p ∈ a.zip b, SameKind p.1 p.2) → a = b
  | [], [], _, _, _, _ => rfl
  | [], _ :: _, js, h1, h2, _ => by
    have := h1.1.symm.trans h2.1
    simp at this
  | _ :: _, [], js, h1, h2, _ => by
    have := h1.1.symm.trans h2.1
    simp at this
  | v :: a, w :: b, [], h1, _, _ => by
    have := h1.1
    simp at this
  | v :: a, w :: b, j :: js, h1, h2, hk => by
    have e : v = w := shown_inj (h1.2 (v, j) (by simp)) (h2.2 (w, j) (by simp)) (hk (v, w) (by simp))
    rw [e, aligned_inj (a := a) (b := b) (js := js) ⟨by simpa using h1.1, fun p hp => h1.2 p (by simp [hp])⟩
        ⟨by simpa using h2.1, fun p hp => h2.2 p (by simp [hp])⟩ fun p hp => hk p (by simp [hp])]

/-! ## Tokens -/

mutual

theorem toks_leaves [GoFloat F] : ∀ j : Doc F, j.toks.filter isScalar = (leaves j).flatMap Doc.toks
  | .null | .bool _ | .int _ | .num _ | .str _ => rfl
  | .arr l => by
    simp only [Doc.toks, leaves, List.filter_append, ← toksL_leaves l]
    simp [isScalar]

theorem toksL_leaves [GoFloat F] : ∀ l : List (Doc F), (Doc.toksL l).filter isScalar = (leavesL l).flatMap Doc.toks
  | [] => rfl
  | j :: js => by
    simp only [Doc.toksL, leavesL, List.filter_append, List.flatMap_append, toks_leaves j, toksL_leaves js]

end

theorem shown_token [GoFloat F] {text : List UInt8 → GoString → Prop} {v : Val F} {j : Doc F} (h : Shown text v j) :
    ∃ t, j.toks = [t] ∧ TokenOf text v t := by
  cases h with
  | missing => exact ⟨_, rfl, .missing⟩
  | uint v => exact ⟨_, rfl, .uint v⟩
  | int v =>
    by_cases h0 : 0 ≤ v
    · obtain ⟨n, rfl⟩ := Int.eq_ofNat_of_zero_le h0
      exact ⟨_, rfl, .int n⟩
    · exact ⟨_, by simp only [Doc.toks, if_neg h0], .negative (by omega)⟩
  | float f => exact ⟨_, rfl, .float f⟩
  | bool b => exact ⟨_, rfl, .bool b⟩
  | text ht => exact ⟨_, rfl, .text ht⟩
  | bits hb => exact ⟨_, rfl, .bits hb⟩
  | noBits => exact ⟨_, rfl, .noBits⟩

theorem aligned_tokens [GoFloat F] : ∀ {vs : List (Val F)} {js : List (Doc F)}, Aligned vs js →
    (js.flatMap Doc.toks).length = vs.length ∧ ∀ p ∈ vs.zip (js.flatMap Doc.toks), TokenOf AsBase64 p.1 p.2
  | [], [], _ => ⟨rfl, by simp⟩
  | [], _ :: _, h => by have := h.1; simp at this
  | _ :: _, [], h => by have := h.1; simp at this
  | v :: vs, j :: js, h => by
    obtain ⟨t, h1, h2⟩ := shown_token (h.2 (v, j) (by simp))
    obtain ⟨k1, k2⟩ := aligned_tokens (vs := vs) (js := js) ⟨by simpa using h.1, fun p hp => h.2 p (by simp [hp])⟩
    rw [List.flatMap_cons, h1]
    refine ⟨by simp [k1], ?_⟩
    intro p hp
    rcases List.mem_cons.1 hp with rfl | hp
    · exact h2
    · exact k2 p hp

/-! ## Characters -/

theorem toNat_ofNat {n : Nat} (h : n < 256) : (UInt8.ofNat n).toNat = n := by
  simp [UInt8.toNat_ofNat']
  omega

theorem inRange_iff {lo hi : Nat} {b : UInt8} : inRange lo hi b = true ↔ lo ≤ b.toNat ∧ b.toNat ≤ hi := by
  simp [inRange]

theorem byte_eq {a b : UInt8} (h : a.toNat = b.toNat) : a = b := UInt8.toNat_inj.1 h

theorem runeLength_utf8 {n : Nat} (h : IsChar n) (s : List UInt8) : runeLength (utf8 n ++ s) = (utf8 n).length := by
  unfold IsChar at h
  unfold utf8
  split
  · simp only [List.cons_append, List.nil_append, runeLength]
    rw [if_pos (by rw [toNat_ofNat] <;> omega)]
    rfl
  split
  · have e1 : (UInt8.ofNat (0xC0 + n / 64)).toNat = 0xC0 + n / 64 := toNat_ofNat (by omega)
    have e2 : (UInt8.ofNat (0x80 + n % 64)).toNat = 0x80 + n % 64 := toNat_ofNat (by omega)
    simp only [List.cons_append, List.nil_append, runeLength]
    rw [if_neg (by omega), if_pos (inRange_iff.2 (by omega)), if_pos (inRange_iff.2 (by omega))]
    rfl
  split
  · have e1 : (UInt8.ofNat (0xE0 + n / 4096)).toNat = 0xE0 + n / 4096 := toNat_ofNat (by omega)
    have e2 : (UInt8.ofNat (0x80 + n / 64 % 64)).toNat = 0x80 + n / 64 % 64 := toNat_ofNat (by omega)
    have e3 : (UInt8.ofNat (0x80 + n % 64)).toNat = 0x80 + n % 64 := toNat_ofNat (by omega)
    simp only [List.cons_append, List.nil_append, runeLength]
    rw [if_neg (by omega), if_neg (by rw [inRange_iff]; omega), if_pos (inRange_iff.2 (by omega)), if_pos]
    · rfl
    · rw [Bool.and_eq_true, inRange_iff, inRange_iff, e2, e3]
      have h1 : UInt8.ofNat (0xE0 + n / 4096) = 0xE0 ↔ n / 4096 = 0 := by
        rw [← UInt8.toNat_inj, e1]
        show _ = 0xE0 ↔ _
        omega
      have h2 : UInt8.ofNat (0xE0 + n / 4096) = 0xED ↔ n / 4096 = 13 := by
        rw [← UInt8.toNat_inj, e1]
        show _ = 0xED ↔ _
        omega
      simp only [h1, h2]
      refine ⟨⟨?_, ?_⟩, by omega⟩ <;> split <;> omega
  · have e1 : (UInt8.ofNat (0xF0 + n / 262144)).toNat = 0xF0 + n / 262144 := toNat_ofNat (by omega)
    have e2 : (UInt8.ofNat (0x80 + n / 4096 % 64)).toNat = 0x80 + n / 4096 % 64 := toNat_ofNat (by omega)
    have e3 : (UInt8.ofNat (0x80 + n / 64 % 64)).toNat = 0x80 + n / 64 % 64 := toNat_ofNat (by omega)
    have e4 : (UInt8.ofNat (0x80 + n % 64)).toNat = 0x80 + n % 64 := toNat_ofNat (by omega)
    simp only [List.cons_append, List.nil_append, runeLength]
    rw [if_neg (by omega), if_neg (by rw [inRange_iff]; omega), if_neg (by rw [inRange_iff]; omega), if_pos]
    · rfl
    · rw [Bool.and_eq_true, Bool.and_eq_true, Bool.and_eq_true, inRange_iff, inRange_iff, inRange_iff, inRange_iff, e1, e2, e3, e4]
      have h1 : UInt8.ofNat (0xF0 + n / 262144) = 0xF0 ↔ n / 262144 = 0 := by
        rw [← UInt8.toNat_inj, e1]
        show _ = 0xF0 ↔ _
        omega
      have h2 : UInt8.ofNat (0xF0 + n / 262144) = 0xF4 ↔ n / 262144 = 4 := by
        rw [← UInt8.toNat_inj, e1]
        show _ = 0xF4 ↔ _
        omega
      simp only [h1, h2]
      refine ⟨⟨⟨by omega, ?_, ?_⟩, by omega⟩, by omega⟩ <;> split <;> omega

theorem utf8_length_pos (n : Nat) : 0 < (utf8 n).length := by
  unfold utf8
  split
  · simp
  split
  · simp
  split <;> simp

theorem ofNat_eq {n : Nat} {a : UInt8} (h : n = a.toNat) : UInt8.ofNat n = a := by
  subst h
  exact byte_eq (toNat_ofNat a.toNat_lt)

theorem of_ite {p : Prop} [Decidable p] {k : Nat} (h : (if p then k else 0) ≠ 0) : p := by
  by_cases hp : p
  · exact hp
  · rw [if_neg hp] at h
    exact absurd rfl h

theorem utf8_runeLength : ∀ {l : List UInt8}, runeLength l ≠ 0 → ∃ n s, IsChar n ∧ l = utf8 n ++ s
  | [], h => absurd rfl h
  | a :: rest, h => by
    have ha := a.toNat_lt
    unfold runeLength at h
    simp only at h
    by_cases h0 : a.toNat < 0x80
    · refine ⟨a.toNat, rest, .inl (by omega), ?_⟩
      rw [utf8, if_pos h0, ofNat_eq rfl]
      rfl
    rw [if_neg h0] at h
    match rest, h with
    | [], h => exact absurd rfl h
    | b :: rest, h =>
      have hb := b.toNat_lt
      simp only at h
      by_cases h1 : inRange 0xC2 0xDF a = true
      · rw [if_pos h1] at h
        by_cases h2 : inRange 0x80 0xBF b = true
        · rw [inRange_iff] at h1 h2
          refine ⟨(a.toNat - 0xC0) * 64 + (b.toNat - 0x80), rest, .inl (by omega), ?_⟩
          rw [utf8, if_neg (by omega), if_pos (by omega), ofNat_eq (a := a) (by omega), ofNat_eq (a := b) (by omega)]
          rfl
        · rw [if_neg h2] at h
          exact absurd rfl h
      rw [if_neg h1] at h
      match rest, h with
      | [], h => exact absurd rfl h
      | c :: rest, h =>
        have hc := c.toNat_lt
        simp only at h
        by_cases h3 : inRange 0xE0 0xEF a = true
        · rw [if_pos h3] at h
          have h4 := of_ite h
          · rw [Bool.and_eq_true, inRange_iff, inRange_iff] at h4
            rw [inRange_iff] at h3
            have i1 : a.toNat = 0xE0 → 0xA0 ≤ b.toNat := fun e => by
              have : a = 0xE0 := byte_eq e
              rw [if_pos this] at h4
              exact h4.1.1
            have i2 : a.toNat = 0xED → b.toNat ≤ 0x9F := fun e => by
              have : a = 0xED := byte_eq e
              rw [if_pos this] at h4
              exact h4.1.2
            have i3 : 0x80 ≤ b.toNat := by
              have := h4.1.1
              split at this <;> omega
            have i4 : b.toNat ≤ 0xBF := by
              have := h4.1.2
              split at this <;> omega
            refine ⟨(a.toNat - 0xE0) * 4096 + (b.toNat - 0x80) * 64 + (c.toNat - 0x80), rest, ?_, ?_⟩
            · unfold IsChar
              omega
            · rw [utf8, if_neg (by omega), if_neg (by omega), if_pos (by omega), ofNat_eq (a := a) (by omega), ofNat_eq (a := b) (by omega),
                ofNat_eq (a := c) (by omega)]
              rfl
        rw [if_neg h3] at h
        match rest, h with
        | [], h => exact absurd rfl h
        | d :: rest, h =>
          have hd := d.toNat_lt
          simp only at h
          have h4 := of_ite h
          · rw [Bool.and_eq_true, Bool.and_eq_true, Bool.and_eq_true, inRange_iff, inRange_iff, inRange_iff, inRange_iff] at h4
            have i1 : a.toNat = 0xF0 → 0x90 ≤ b.toNat := fun e => by
              have : a = 0xF0 := byte_eq e
              rw [if_pos this] at h4
              exact h4.1.1.2.1
            have i2 : a.toNat = 0xF4 → b.toNat ≤ 0x8F := fun e => by
              have : a = 0xF4 := byte_eq e
              rw [if_pos this] at h4
              exact h4.1.1.2.2
            have i3 : 0x80 ≤ b.toNat := by
              have := h4.1.1.2.1
              split at this <;> omega
            have i4 : b.toNat ≤ 0xBF := by
              have := h4.1.1.2.2
              split at this <;> omega
            refine ⟨(a.toNat - 0xF0) * 262144 + (b.toNat - 0x80) * 4096 + (c.toNat - 0x80) * 64 + (d.toNat - 0x80), rest, ?_, ?_⟩
            · unfold IsChar
              omega
            · rw [utf8, if_neg (by omega), if_neg (by omega), if_neg (by omega), ofNat_eq (a := a) (by omega), ofNat_eq (a := b) (by omega),
                ofNat_eq (a := c) (by omega), ofNat_eq (a := d) (by omega)]
              rfl

theorem validText_utf8 {n : Nat} (h : IsChar n) (s : List UInt8) : validText (utf8 n ++ s) = utf8 n ++ validText s := by
  have hr := runeLength_utf8 h s
  have hp := utf8_length_pos n
  rcases hu : utf8 n with _ | ⟨a, l⟩
  · rw [hu] at hp
    cases hp
  rw [hu] at hr
  rw [List.cons_append] at hr ⊢
  rw [validText, if_neg (by rw [hr]; simp), hr]
  simp

theorem validText_replaced : ∀ (k : Nat) (s : List UInt8), s.length ≤ k → Replaced s (validText s)
  | _, [], _ => by
    rw [validText]
    exact .nil
  | 0, a :: s, h => by simp at h
  | k + 1, a :: s, h => by
    by_cases h0 : runeLength (a :: s) = 0
    · rw [validText, if_pos h0]
      refine .byte (fun n s' hn e => ?_) (validText_replaced k s (by simpa using h))
      rw [e, runeLength_utf8 hn] at h0
      have := utf8_length_pos n
      omega
    · obtain ⟨n, s', hn, e⟩ := utf8_runeLength h0
      rw [e, validText_utf8 hn]
      refine .char hn (validText_replaced k s' ?_)
      have := congrArg List.length e
      have := utf8_length_pos n
      simp only [List.length_cons, List.length_append] at *
      omega

theorem replaced_unique {s t : List UInt8} (h : Replaced s t) : t = validText s := by
  induction h with
  | nil => rw [validText]
  | char hn _ ih => rw [validText_utf8 hn, ih]
  | @byte a s t h _ ih =>
    rw [validText, if_pos, ih]
    · rfl
    · refine Classical.byContradiction fun h0 => ?_
      obtain ⟨n, s', hn, e⟩ := utf8_runeLength h0
      exact h n s' hn e

end Marshal

end Gobufr
