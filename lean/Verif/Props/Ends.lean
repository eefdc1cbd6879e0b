import Verif.Proofs.Ends
import Verif.Proofs.Extend
import Verif.Props.Extend
import Verif.Props.Message

/-!
# Decoding ends (C116)
-/

namespace Gobufr

open EndsSpec

variable {F : Type} [GoFloat F]

/-- C116, the property: decoding ends, whatever the input. Time is measured by the fuel of the configuration, which is
spent by the parser of templates and by the conversion of numbers to opaque bits. -/
def C116_statement (F : Type) [GoFloat F] : Prop := ∀ (c : FacCfg) (s : Fac F), Loading c.tables → NoCycles c.tables →
  ∃ r, r.1 ≠ .diverge ∧ ∃ N, ∀ n, N ≤ n → Runtime.run { c with fuel := n } s = r

/-- C116. What is decoded in some time is decoded to the same message or the same error if there is more time. -/
theorem C116_fuel (c : FacCfg) (s : Fac F) (n : Nat) (hn : c.fuel ≤ n) (h : (Runtime.run c s).1 ≠ .diverge) :
    Runtime.run { c with fuel := n } s = Runtime.run c s :=
  (steady_run hn s (.inl h)).symm

/-- C116. If the template has been parsed, more time does not help. -/
theorem C116_hopeless (c : FacCfg) (s : Fac F) (n : Nat) (hn : c.fuel ≤ n)
    (h : ∀ u g, (Runtime.run c s).2.ut = some u → (Runtime.run c s).2.tableGroup = some g → parse g.lookup c.fuel u.ids ≠ .diverge) :
    Runtime.run { c with fuel := n } s = Runtime.run c s :=
  (steady_run hn s (.inr h)).symm

/-- C116, what holds. With tables that can be read and sequences that do not contain themselves decoding ends, unless
the message is compressed, in the binary form, and has a template with opaque bits. -/
theorem C116_partial (c : FacCfg) (hl : Loading c.tables) (hc : NoCycles c.tables) (s : Fac F) : ∃ N, ∀ n, N ≤ n →
    (Runtime.run { c with fuel := n } s).1 = .diverge →
      c.inputType = .binary ∧ Compressed (Runtime.run { c with fuel := n } s).2 ∧
        HasOpaque (Runtime.run { c with fuel := n } s).2 :=
  fate_run hl hc s

/-- C116. Decoding flat JSON ends. -/
theorem C116_json (c : FacCfg) (hl : Loading c.tables) (hc : NoCycles c.tables) (hj : c.inputType ≠ .binary) (s : Fac F) :
    ∃ r, r.1 ≠ .diverge ∧ ∃ N, ∀ n, N ≤ n → Runtime.run { c with fuel := n } s = r := by
  obtain ⟨N, h⟩ := C116_partial c hl hc s
  have hN : (Runtime.run { c with fuel := N } s).1 ≠ .diverge := fun e => hj (h N (Nat.le_refl N) e).1
  exact ⟨_, hN, N, fun n hn => C116_fuel { c with fuel := N } s n hn hN⟩

/-- C116. Without units "binary" in table B and without local descriptors that are skipped decoding ends: stated for the
template of the message, as far as it is parsed. -/
theorem C116_plain (c : FacCfg) (hl : Loading c.tables) (hc : NoCycles c.tables) (s : Fac F)
    (h : ∀ n, ¬ HasOpaque (Runtime.run { c with fuel := n } s).2) :
    ∃ r, r.1 ≠ .diverge ∧ ∃ N, ∀ n, N ≤ n → Runtime.run { c with fuel := n } s = r := by
  obtain ⟨N, hN⟩ := C116_partial c hl hc s
  have hN : (Runtime.run { c with fuel := N } s).1 ≠ .diverge := fun e => h N (hN N (Nat.le_refl N) e).2.2
  exact ⟨_, hN, N, fun n hn => C116_fuel { c with fuel := N } s n hn hN⟩

/-- C116. Decoding uncompressed data ends. -/
theorem C116_uncompressed (c : FacCfg) (hl : Loading c.tables) (hc : NoCycles c.tables) (s : Fac F)
    (h : ∀ n, ¬ Compressed (Runtime.run { c with fuel := n } s).2) :
    ∃ r, r.1 ≠ .diverge ∧ ∃ N, ∀ n, N ≤ n → Runtime.run { c with fuel := n } s = r := by
  obtain ⟨N, hN⟩ := C116_partial c hl hc s
  have hN : (Runtime.run { c with fuel := N } s).1 ≠ .diverge := fun e => h N (hN N (Nat.le_refl N) e).2.1
  exact ⟨_, hN, N, fun n hn => C116_fuel { c with fuel := N } s n hn hN⟩

/-- C116. Tables whose sequences can be ranked, all together, have no cycles. -/
theorem C116_ranked (t : Tables) (rank : ID → Nat)
    (h : ∀ n x id e, t.getD n = .ok x → mapGet x.entries id = some e → ∀ m ∈ e.members, rank m < rank id) : NoCycles t := by
  intro a b c d e g hg
  have key : ∀ n, ExtendSpec.Loads (fun x y => ∃ n, t.getD n = .ok x.d) (newSingleTableGroup t n) (newSingleTableGroup t n) := by
    intro n
    unfold newSingleTableGroup
    cases h1 : t.getB n with
    | ok x =>
      cases h2 : t.getD n with
      | ok y => exact .both ⟨n, h2⟩
      | err e => exact .err e
      | panic w => exact .panic w
      | diverge => exact .diverge
    | err e => exact .err e
    | panic w => exact .panic w
    | diverge => exact .diverge
  have hk := ExtendSpec.groups_loads key a b c d e
  rw [hg] at hk
  have hm : ∀ {l l' : List SingleGroup}, EncodeSpec.Paired (fun x _ => ∃ n, t.getD n = .ok x.d) l l' → ∀ x ∈ l, ∃ n, t.getD n = .ok x.d := by
    intro l l' hp
    induction hp with
    | nil => exact fun x hx => nomatch hx
    | cons h1 _ ih =>
      intro x hx
      rcases List.mem_cons.1 hx with rfl | hx
      · exact h1
      · exact ih x hx
  cases hk with
  | ok p =>
    refine ⟨rank, ?_⟩
    rintro s ms m ⟨hF, d, e, h1, h2, rfl⟩ hmm
    obtain ⟨x, hx, h3⟩ := ExtendSpec.chain_ok_mem h1
    obtain ⟨n, hn⟩ := hm p x hx
    unfold SingleGroup.lookup at h3
    rw [if_neg (by omega), if_neg (by omega), if_neg (by omega), if_pos hF] at h3
    unfold TableD.lookup at h3
    split at h3
    · next e' he' =>
      cases h3
      cases h2
      exact h n x.d s e hn he' m hmm
    · cases h3

namespace EndsExample

/-- 012001 has the unit "binary". -/
def cfg : FacCfg := ExtendExample.cfg [] [(12001, { ExtendExample.bits 8 with unit := .binary })]

/-- A message with one subset of the template 012001; the data are compressed. -/
def message : List UInt8 :=
  [0x42, 0x55, 0x46, 0x52, 0, 0, 49, 4] ++
  [0, 0, 22, 0, 0, 0, 0, 0, 0, 0, 0, 0, 0, 13, 0, 7, 0xE4, 1, 1, 0, 0, 0] ++
  [0, 0, 9, 0, 0, 1, 0xC0, 0x0C, 0x01] ++ [0, 0, 6, 0, 0x12, 0] ++ [0x37, 0x37, 0x37, 0x37]

theorem loading (l e : List (ID × Bentry)) : Loading (ExtendExample.tables l e) where
  b n := by unfold ExtendExample.tables; dsimp only; split <;> (try split) <;> exact fun h => nomatch h
  d n := by unfold ExtendExample.tables; dsimp only; split <;> exact fun h => nomatch h

theorem noCycles (l e : List (ID × Bentry)) : NoCycles (ExtendExample.tables l e) :=
  C116_ranked _ (fun _ => 0) fun n x id y h1 h2 => by
    unfold ExtendExample.tables at h1
    dsimp only at h1
    split at h1
    · cases h1; cases h2
    · cases h1

/-- The call does not end. -/
def hangs : Outcome α → Bool
  | .diverge => true
  | _ => false

theorem stuck : hangs (Runtime.run cfg (MessageExample.input message)).1 = true := by decide +kernel

end EndsExample

open EndsExample in
/-- The code violates C116: the decoder hangs on the message. -/
theorem C116_violates : ¬ C116_statement ToyFloat := by
  intro h
  obtain ⟨r, hr, N, hN⟩ := h cfg (MessageExample.input message) (loading _ _) (noCycles _ _)
  have e1 : (Runtime.run cfg (MessageExample.input message)).2.ut = some ⟨[12001], 2, 6, 8⟩ := by decide +kernel
  have e2 : (Runtime.run cfg (MessageExample.input message)).2.tableGroup =
      some ⟨[⟨⟨[], [(12001, { ExtendExample.bits 8 with unit := .binary })]⟩, ⟨[], []⟩⟩]⟩ := by decide +kernel
  have k := C116_hopeless cfg (MessageExample.input message) (max N 100) (Nat.le_max_right _ _) fun u g hu hg => by
    rw [e1] at hu
    rw [e2] at hg
    cases hu
    cases hg
    intro e
    have : hangs (parse (ChainGroup.lookup ⟨[⟨⟨[], [(12001, { ExtendExample.bits 8 with unit := .binary })]⟩, ⟨[], []⟩⟩]⟩) 100
      [12001]) = false := by decide +kernel
    exact absurd (congrArg hangs e) (by rw [show hangs (parse _ cfg.fuel _) = false from this]; decide)
  rw [hN _ (Nat.le_max_left _ _)] at k
  rw [k] at hr
  have := stuck
  revert hr
  generalize (Runtime.run cfg (MessageExample.input message)).1 = o at this
  cases o with
  | diverge => exact fun h => h rfl
  | ok _ => cases this
  | err _ => cases this
  | panic _ => cases this

open EndsExample in
/-- Tables that load and have no cycles; uncompressed data; flat JSON. -/
example : (∃ N, ∀ n, N ≤ n → (Runtime.run { ExtendExample.cfg [] [(12001, ExtendExample.bits 8)] with fuel := n }
      (MessageExample.input ExtendExample.message)).1 ≠ .diverge) ∧
    ∃ N, ∀ n, N ≤ n → (Runtime.run { ExtendExample.cfg [] [(12001, ExtendExample.bits 8)] with inputType := .flatJson, fuel := n }
      MessageExample.jsonInput).1 ≠ .diverge := by
  constructor
  · refine ⟨100, fun n hn => ?_⟩
    have h : (Runtime.run (ExtendExample.cfg [] [(12001, ExtendExample.bits 8)]) (MessageExample.input ExtendExample.message)).1.isOk =
      true := by decide +kernel
    obtain ⟨m, hm⟩ := MessageExample.isOk_eq h
    rw [C116_fuel (ExtendExample.cfg [] [(12001, ExtendExample.bits 8)]) _ n hn (by rw [hm]; exact fun h => nomatch h), hm]
    exact fun h => nomatch h
  · obtain ⟨r, hr, N, h⟩ := C116_json { ExtendExample.cfg [] [(12001, ExtendExample.bits 8)] with inputType := .flatJson }
      (loading _ _) (noCycles _ _) (by decide) MessageExample.jsonInput
    exact ⟨N, fun n hn => by rw [h n hn]; exact hr⟩

end Gobufr
