import Verif.Spec.Fixed
import Verif.Props.Lossless
import Verif.Proofs.Compose
import Verif.Proofs.Factory

/-!
# C123: without delayed replication and bitmaps every value has its fixed place
-/

namespace Gobufr
open Spec UnpackSpec EncodeSpec

variable {F : Type}

def Datum.place (i : Datum F) : NodeDesc × PackingInfo F := (i.desc, i.info)

theorem fixed_tail {n : Ast} {ns : List Ast} (h : Unvarying (n :: ns)) : Unvarying ns := fun m hm => h m (List.mem_append_right _ hm)

theorem fixed_head {n : Ast} {ns : List Ast} (h : Unvarying (n :: ns)) : depends n = false :=
  h n (List.mem_append_left _ (self_mem_nodes n))

theorem steady_append {a b : List Ast} (ha : Unvarying a) (hb : Unvarying b) : Unvarying (a ++ b) := by
  intro n hn
  rw [nodesL_append] at hn
  rcases List.mem_append.1 hn with hn | hn
  · exact ha n hn
  · exact hb n hn

theorem steady_replicate {a : List Ast} (ha : Unvarying a) : ∀ k, Unvarying (List.replicate k a).flatten
  | 0 => by intro n hn; cases hn
  | k + 1 => by
    rw [List.replicate_succ, List.flatten_cons]
    exact steady_append ha (steady_replicate ha k)

theorem steady_below {n : Ast} {ns ms : List Ast} (h : Unvarying (n :: ns)) (hm : ∀ x ∈ ParserSpec.nodesL ms, x ∈ ParserSpec.nodes n) :
    Unvarying ms := fun m hm' => h m (List.mem_append_left _ (hm m hm'))

theorem add_places [GoFloat F] (x : Ctx) {is is' : List (Datum F)} (h : is.map Datum.place = is'.map Datum.place) :
    x.add is = x.add is' := by
  have : is.map Datum.desc = is'.map Datum.desc := by
    have := congrArg (List.map Prod.fst) h
    simpa [List.map_map, Function.comp_def, Datum.place] using this
  unfold Ctx.add
  rw [this]

theorem assocs_places [GoFloat F] {τ : Type} {W : Wire F τ} {d : Desc} {ws : List Int} {b : List τ} {is : List (Datum F)}
    (h : Assocs W d ws b is) : is.map Datum.place = ws.map fun w => (⟨some d, true⟩, EncodeSpec.bare .nonnegCode w) := by
  induction h with
  | nil => rfl
  | cons _ _ ih => rw [List.map_cons, List.map_cons, ih]; rfl

/-- Data for the same steady template have the same elements and packings, however they are written. -/
theorem coded_steady [GoFloat F] {τ τ' : Type} {W : Wire F τ} {W' : Wire F τ'} {compatible : Bool} {x y : Ctx} {ts : List Ast}
    {b : List τ} {is : List (Datum F)} (h : Coded W compatible x ts b is y) (ht : Unvarying ts) :
    ∀ {b' : List τ'} {is' : List (Datum F)} {y' : Ctx}, Coded W' compatible x ts b' is' y' →
      is.map Datum.place = is'.map Datum.place ∧ y = y' := by
  induction h with
  | nil => intro b' is' y' h'; cases h'; exact ⟨rfl, rfl⟩
  | @element x _ _ _ _ d e _ _ as _ he ha hw _ ih =>
    intro b' is' y' h'
    cases h' with
    | @element _ _ _ _ _ _ e' _ _ as' vs' he' ha' hw' h' =>
      cases he.symm.trans he'
      have hp := (assocs_places ha).trans (assocs_places ha').symm
      obtain ⟨k1, k2⟩ := ih (fixed_tail ht) (by
        rw [add_places x (is' := as' ++ [⟨⟨some d, false⟩, x.ops.packing e, vs'⟩]) (by rw [List.map_append, List.map_append, hp]; rfl)]
        exact h')
      refine ⟨?_, k2⟩
      simp only [List.map_append, hp, k1]
      rfl
  | significance he hw _ ih =>
    intro b' is' y' h'
    cases h' with
    | significance he' hw' h' =>
      cases he.symm.trans he'
      obtain ⟨k1, k2⟩ := ih (fixed_tail ht) h'
      exact ⟨by rw [List.map_cons, List.map_cons, k1]; rfl, k2⟩
  | op205 hw _ ih =>
    intro b' is' y' h'
    cases h' with
    | op205 hw' h' =>
      obtain ⟨k1, k2⟩ := ih (fixed_tail ht) h'
      exact ⟨by rw [List.map_cons, List.map_cons, k1]; rfl, k2⟩
  | op206 hw _ ih =>
    intro b' is' y' h'
    cases h' with
    | op206 hw' h' =>
      obtain ⟨k1, k2⟩ := ih (fixed_tail ht) h'
      exact ⟨by rw [List.map_cons, List.map_cons, k1]; rfl, k2⟩
  | marker h1 h2 h3 h4 hw _ ih =>
    intro b' is' y' h'
    cases h' with
    | marker h1' h2' h3' h4' hw' h' =>
      cases h1.symm.trans h1'
      cases h2.symm.trans h2'
      cases h4.symm.trans h4'
      obtain ⟨k1, k2⟩ := ih (fixed_tail ht) h'
      exact ⟨by rw [List.map_cons, List.map_cons, k1]; rfl, k2⟩
  | delayed | bitmap | recall | assessment => cases fixed_head ht
  | absent _ ih => intro b' is' y' h'; cases h' with | absent h' => exact ih (fixed_tail ht) h'
  | sequence _ ih =>
    intro b' is' y' h'
    cases h' with
    | sequence h' => exact ih (steady_append (steady_below ht fun x hx => List.mem_cons_of_mem _ hx) (fixed_tail ht)) h'
  | notPresent _ ih =>
    intro b' is' y' h'
    cases h' with
    | notPresent h' => exact ih (steady_append (steady_below ht fun x hx => List.mem_cons_of_mem _ hx) (fixed_tail ht)) h'
  | fixed _ ih =>
    intro b' is' y' h'
    cases h' with
    | fixed h' =>
      exact ih (steady_append (steady_replicate (steady_below ht fun x hx => List.mem_cons_of_mem _ hx) _) (fixed_tail ht)) h'
  | op201 _ ih => intro b' is' y' h'; cases h' with | op201 h' => exact ih (fixed_tail ht) h'
  | op202 _ ih => intro b' is' y' h'; cases h' with | op202 h' => exact ih (fixed_tail ht) h'
  | op207 _ ih => intro b' is' y' h'; cases h' with | op207 h' => exact ih (fixed_tail ht) h'
  | op208 _ ih => intro b' is' y' h'; cases h' with | op208 h' => exact ih (fixed_tail ht) h'
  | op203end _ _ ih => intro b' is' y' h'; cases h' with | op203end _ h' => exact ih (fixed_tail ht) h'
  | op204 h0 _ ih =>
    intro b' is' y' h'
    cases h' with
    | op204 _ h' => exact ih (steady_append (steady_below ht fun x hx => List.mem_cons_of_mem _ hx) (fixed_tail ht)) h'
    | op204end h0' => exact absurd h0' h0
  | op204end h0 _ _ ih =>
    intro b' is' y' h'
    cases h' with
    | op204 h0' => exact absurd h0 h0'
    | op204end _ _ h' => exact ih (steady_append (steady_below ht fun x hx => List.mem_cons_of_mem _ hx) (fixed_tail ht)) h'
  | op235 _ ih => intro b' is' y' h'; cases h' with | op235 h' => exact ih (fixed_tail ht) h'
  | op237end _ ih => intro b' is' y' h'; cases h' with | op237end h' => exact ih (fixed_tail ht) h'

/-! ## Where the bits are -/

theorem single_length [GoFloat F] {info : PackingInfo F} {b : List Bool} {vs : List (Val F)} (h : Single info b vs) :
    b.length = info.nbits.toNat := by
  cases h with
  | number _ hn => rw [hn]; simp
  | @text s _ hn =>
    rw [hn]
    have : ∀ s : List UInt8, (s.flatMap byteBits).length = 8 * s.length := by
      intro s
      induction s with
      | nil => rfl
      | cons a s ih => rw [List.flatMap_cons, List.length_append, ih, List.length_cons]; simp [byteBits]; omega
    rw [this]
    omega
  | signed _ hn => rw [hn]; simp
  | skipped _ hn => rw [hn]; simp

theorem single_alone [GoFloat F] {info : PackingInfo F} {b : List Bool} {vs : List (Val F)} (h : Single info b vs) : vs = [vs.getD 0 .nil] := by
  cases h <;> rfl

theorem pieces_width [GoFloat F] {is : List (Datum F)} {bss : List (List Bool)}
    (h : List.Forall₂ (fun (i : Datum F) b => Single i.info b i.vals) is bss) :
    bss.flatten.length = Plan.width (is.map Datum.place) := by
  induction h with
  | nil => rfl
  | cons hw _ ih =>
    rw [List.flatten_cons, List.length_append, ih, single_length hw]
    simp [Plan.width, Datum.place]

/-- Every piece is where the plan says. -/
theorem pieces_slice [GoFloat F] {is : List (Datum F)} {bss : List (List Bool)}
    (h : List.Forall₂ (fun (i : Datum F) b => Single i.info b i.vals) is bss) : ∀ (k : Nat) (i : Datum F), is[k]? = some i →
    ∀ pre post : List Bool, Single i.info
      (bitsAt (pre ++ bss.flatten ++ post) (pre.length + Plan.offset (is.map Datum.place) k) i.info.nbits.toNat) i.vals := by
  induction h with
  | nil => intro k i hi; cases hi
  | @cons i0 b is bss hw _ ih =>
    intro k i hi pre post
    cases k with
    | zero =>
      obtain rfl : i0 = i := Option.some.inj hi
      have e : bitsAt (pre ++ (b :: bss).flatten ++ post) (pre.length + Plan.offset ((i0 :: is).map Datum.place) 0) i0.info.nbits.toNat = b := by
        show (List.drop (pre.length + 0) _).take _ = b
        rw [List.flatten_cons, Nat.add_zero, List.append_assoc, List.drop_left, List.append_assoc, ← single_length hw, List.take_left]
      rw [e]
      exact hw
    | succ k =>
      have := ih k i hi (pre ++ b) post
      rw [List.flatten_cons]
      have e : pre.length + Plan.offset ((i0 :: is).map Datum.place) (k + 1) = (pre ++ b).length + Plan.offset (is.map Datum.place) k := by
        rw [List.length_append, single_length hw]
        simp [Plan.offset, Plan.width, Datum.place]
        omega
      rw [e, ← List.append_assoc]
      exact this

/-- Every subset begins where the plan says. -/
theorem subsets_slice [GoFloat F] {L : Nat} : ∀ {xs : List (List Bool × List (Datum F))}, (∀ x ∈ xs, x.1.length = L) →
    (xs.flatMap Prod.fst).length = xs.length * L ∧
      ∀ j x, xs[j]? = some x → ∃ pre post, xs.flatMap Prod.fst = pre ++ x.1 ++ post ∧ pre.length = j * L
  | [], _ => ⟨by simp, fun j x h => by cases h⟩
  | x0 :: xs, h => by
    obtain ⟨h1, h2⟩ := subsets_slice (xs := xs) fun x hx => h x (List.mem_cons_of_mem _ hx)
    have h0 := h x0 List.mem_cons_self
    refine ⟨by rw [List.flatMap_cons, List.length_append, h1, h0, List.length_cons]; ring, fun j x hj => ?_⟩
    cases j with
    | zero => cases hj; exact ⟨[], xs.flatMap Prod.fst, by simp, by simp⟩
    | succ j =>
      obtain ⟨pre, post, e, hl⟩ := h2 j x hj
      exact ⟨x0.1 ++ pre, post, by rw [List.flatMap_cons, e]; simp, by rw [List.length_append, h0, hl]; ring⟩

/-- **C123**: a template without delayed replication and bitmaps has a plan of elements and packings, which depends on nothing else, such
that in every message without compression the values of subset j stand at their places in the bits from j times the width of the plan on,
and the data have as many bits as there are subsets times that width. -/
theorem C123_plan [GoFloat F] [LawfulGoFloat F] (compatible : Bool) (ns : List Ast) (hst : Unvarying ns) (hsim : simpleL true ns = true) :
    ∃ plan : Plan F,
      (∀ (c : FacCfg), c.inputType = .binary → c.compatible = compatible → ∀ (s s' : Fac F) (m : Message F) (input : List UInt8) (q : Int),
        s.r = .bin ⟨BitReader.bitsOfBytes input, 8 * q⟩ → Runtime.run c s = (.ok m, s') →
        fieldValue m 3 "isCompressed" = some (.bool false) → LocalFits m → Means c m ns → ∀ p, payloadOf m = some p →
        (∀ sub ∈ p.subsets, ∀ d info v, some (d, info, v) ∈ reported sub → EncodeSpec.Proper info v) →
        ∃ (d : Draft) (junk bs rest : List UInt8), d.StandsIn input junk bs rest ∧ d.Sound ∧ d.Says m ∧
          d.data.length = p.subsets.length * plan.width ∧
          ∀ j sub, p.subsets[j]? = some sub → (reported sub).length = plan.length ∧ ∀ (k : Nat) (desc : NodeDesc) (info : PackingInfo F), plan[k]? = some (desc, info) →
            ∃ v, (reported sub)[k]? = some (some (desc, info, v)) ∧
              Single info (bitsAt d.data (j * plan.width + plan.offset k) info.nbits.toNat) [v]) ∧
      (∀ (c : FacCfg), c.inputType = .binary → c.compatible = compatible → ∀ (s s' : Fac F) (m : Message F) (input : List UInt8) (q : Int),
        s.r = .bin ⟨BitReader.bitsOfBytes input, 8 * q⟩ → Runtime.run c s = (.ok m, s') →
        fieldValue m 3 "isCompressed" = some (.bool true) → fieldValue m 3 "nSubsets" ≠ some (.uint 0) → LocalFits m → Means c m ns →
        ∀ p, payloadOf m = some p →
        (∀ sub ∈ p.subsets, ∀ d info v, some (d, info, v) ∈ reported sub → ProperColumn info) →
        ∀ sub ∈ p.subsets, (reported sub).length = plan.length ∧ ∀ (k : Nat) (desc : NodeDesc) (info : PackingInfo F), plan[k]? = some (desc, info) →
          ∃ v, (reported sub)[k]? = some (some (desc, info, v))) := by
  obtain ⟨plan, hS, hL⟩ : ∃ plan : Plan F,
      (∀ b is y, Coded (Single (F := F)) compatible {} ns b is y → is.map Datum.place = plan) ∧
      (∀ k b is y, Coded (Lenient (F := F) k) compatible {} ns b is y → is.map Datum.place = plan) := by
    by_cases h1 : ∃ b is y, Coded (Single (F := F)) compatible {} ns b is y
    · obtain ⟨b, is, y, h⟩ := h1
      exact ⟨is.map Datum.place, fun b' is' y' h' => (coded_steady h' hst h).1, fun k b' is' y' h' => (coded_steady h' hst h).1⟩
    · by_cases h2 : ∃ k b is y, Coded (Lenient (F := F) k) compatible {} ns b is y
      · obtain ⟨k, b, is, y, h⟩ := h2
        exact ⟨is.map Datum.place, fun b' is' y' h' => (coded_steady h' hst h).1, fun k b' is' y' h' => (coded_steady h' hst h).1⟩
      · exact ⟨[], fun b' is' y' h' => absurd ⟨_, _, _, h'⟩ h1, fun k b' is' y' h' => absurd ⟨_, _, _, _, h'⟩ h2⟩
  have hrep : ∀ {is : List (Datum F)} {j : Nat}, is.map Datum.place = plan → (written is j).length = plan.length ∧
      ∀ (k : Nat) (desc : NodeDesc) (info : PackingInfo F), plan[k]? = some (desc, info) → ∃ i, is[k]? = some i ∧ i.info = info ∧
        (written is j)[k]? = some (some (desc, info, i.vals.getD j .nil)) := by
    rintro is j rfl
    refine ⟨by simp [written], fun k desc info h => ?_⟩
    rw [List.getElem?_map] at h
    obtain ⟨i, hi, e⟩ := Option.map_eq_some_iff.1 h
    cases e
    exact ⟨i, hi, rfl, by simp [written, hi]⟩
  refine ⟨plan, ?_, ?_⟩
  · rintro c hc rfl s s' m input q hs h hcomp hloc hns p hp hw
    obtain ⟨d, junk, bs, rest, p1, xs, k1, k2, k3, -, k5, k6, k7, -⟩ := C100_uncompressed_partial c hc s s' m input q hs h hcomp hloc hns
      hsim fun p1 hp1 => by
        rw [hp] at hp1
        cases hp1
        exact hw
    rw [hp] at k6
    cases k6
    have hlen : ∀ x ∈ xs, x.1.length = plan.width := by
      intro x hx
      obtain ⟨y, hy⟩ := k5.coded x hx
      obtain ⟨bss, e, hb⟩ := Coded.pieces hy
      rw [e, pieces_width hb, hS _ _ _ hy]
    obtain ⟨l1, l2⟩ := subsets_slice hlen
    have hn : p.subsets.length = xs.length := by simpa using congrArg List.length k7
    refine ⟨d, junk, bs, rest, k1, k2, k3, by rw [k5.data, l1, hn], fun j sub hj => ?_⟩
    have hj' : (p.subsets.map reported)[j]? = some (reported sub) := by rw [List.getElem?_map, hj]; rfl
    rw [k7, List.getElem?_map] at hj'
    obtain ⟨x, hx, e⟩ := Option.map_eq_some_iff.1 hj'
    rw [← e]
    obtain ⟨y, hy⟩ := k5.coded x (List.mem_of_getElem? hx)
    obtain ⟨r1, r2⟩ := hrep (j := 0) (hS _ _ _ hy)
    refine ⟨r1, fun k desc info hk => ?_⟩
    obtain ⟨i, hi, hinf, hwr⟩ := r2 k desc info hk
    refine ⟨_, hwr, ?_⟩
    obtain ⟨bss, eb, hb⟩ := Coded.pieces hy
    obtain ⟨pre, post, ed, hpre⟩ := l2 j x hx
    have := pieces_slice hb k i hi pre post
    rw [← eb, ← ed, ← k5.data, hpre, hS _ _ _ hy, hinf] at this
    have one : i.vals = [i.vals.getD 0 .nil] := by
      exact single_alone this
    rwa [one] at this
  · rintro c hc rfl s s' m input q hs h hcomp hsub hloc hns p hp hw sub hsubm
    obtain ⟨_, _, _, _, p1, k, is, -, -, -, -, -, k5, k6, k7, -⟩ := C100_compressed_partial c hc s s' m input q hs h hcomp hsub hloc hns hsim
      fun p1 hp1 => by
        rw [hp] at hp1
        cases hp1
        exact hw
    rw [hp] at k6
    cases k6
    have hmem := List.mem_map_of_mem (f := reported) hsubm
    rw [k7] at hmem
    obtain ⟨j, -, e⟩ := List.mem_map.1 hmem
    obtain ⟨y, hcod⟩ := k5.coded
    rw [← e]
    obtain ⟨r1, r2⟩ := hrep (j := j) (hL _ _ _ _ hcod)
    refine ⟨r1, fun k desc info hk => ?_⟩
    obtain ⟨i, -, -, hwr⟩ := r2 k desc info hk
    exact ⟨_, hwr⟩

/-! ## The value is that of its bits -/

theorem flatMap_byteBits_inj : ∀ {s s' : List UInt8}, s.flatMap byteBits = s'.flatMap byteBits → s = s'
  | [], [], _ => rfl
  | [], b :: s', h => by have := congrArg List.length h; simp [byteBits] at this
  | b :: s, [], h => by have := congrArg List.length h; simp [byteBits] at this
  | b :: s, b' :: s', h => by
    rw [List.flatMap_cons, List.flatMap_cons] at h
    obtain ⟨h1, h2⟩ := List.append_inj h (by rw [byteBits_length, byteBits_length])
    have := congrArg bitsVal h1
    have hb : ∀ b : UInt8, bitsVal (byteBits b) = b.toNat := fun b => by
      rw [byteBits_eq]
      exact bitsVal_natBits_lt (w := 8) (UInt8.toNat_lt b)
    rw [hb, hb] at this
    rw [UInt8.toNat_inj.1 this, flatMap_byteBits_inj h2]

theorem single_fun [GoFloat F] {info : PackingInfo F} {b b' : List Bool} {vs vs' : List (Val F)} (h : Single info b vs)
    (h' : Single info b' vs') (e : b = b') : vs = vs' := by
  cases h with
  | @number n raw hu hn h64 hr =>
    cases h' with
    | @number n' raw' hu' hn' h64' hr' =>
      obtain rfl : n = n' := by omega
      have := congrArg bitsVal e
      rw [bitsVal_natBits_lt hr, bitsVal_natBits_lt hr'] at this
      rw [this]
    | text hs _ => rw [hs] at hu; rcases hu with h | h | h <;> cases h
    | signed hs => rw [hs] at hu; rcases hu with h | h | h <;> cases h
    | skipped hs => rw [hs] at hu; rcases hu with h | h | h <;> cases h
  | @text s hu hn =>
    cases h' with
    | number hs => rw [hu] at hs; rcases hs with h | h | h <;> cases h
    | text hs _ => rw [flatMap_byteBits_inj e]
    | signed hs => rw [hu] at hs; cases hs
    | skipped hs => rw [hu] at hs; cases hs
  | @signed n mag neg hu hn h64 hr =>
    cases h' with
    | number hs => rw [hu] at hs; rcases hs with h | h | h <;> cases h
    | text hs _ => rw [hu] at hs; cases hs
    | @signed n' mag' neg' hs hn' h64' hr' =>
      obtain rfl : n = n' := by omega
      obtain ⟨rfl, e'⟩ := List.cons.inj e
      have := congrArg bitsVal e'
      rw [bitsVal_natBits_lt hr, bitsVal_natBits_lt hr'] at this
      rw [this]
    | skipped hs => rw [hu] at hs; cases hs
  | @skipped _ bs hu hn hp =>
    cases h' with
    | number hs => rw [hu] at hs; rcases hs with h | h | h <;> cases h
    | text hs _ => rw [hu] at hs; cases hs
    | signed hs => rw [hu] at hs; cases hs
    | skipped hs hn' hp' => cases e; rw [packed_inj hp hp']

/-- **C123**, damage is local: in two messages of such a template, values at the same place which have the same bits are the same, whatever
else in the messages differs. -/
theorem C123_local [GoFloat F] [LawfulGoFloat F] (compatible : Bool) (ns : List Ast) (hst : Unvarying ns) (hsim : simpleL true ns = true) :
    ∃ plan : Plan F, ∀ (c c' : FacCfg), c.inputType = .binary → c'.inputType = .binary → c.compatible = compatible →
      c'.compatible = compatible → ∀ (s s1 s' s1' : Fac F) (m m' : Message F) (input input' : List UInt8) (q q' : Int),
      s.r = .bin ⟨BitReader.bitsOfBytes input, 8 * q⟩ → s'.r = .bin ⟨BitReader.bitsOfBytes input', 8 * q'⟩ →
      Runtime.run c s = (.ok m, s1) → Runtime.run c' s' = (.ok m', s1') →
      fieldValue m 3 "isCompressed" = some (.bool false) → fieldValue m' 3 "isCompressed" = some (.bool false) →
      LocalFits m → LocalFits m' → Means c m ns → Means c' m' ns → ∀ p p', payloadOf m = some p → payloadOf m' = some p' →
      (∀ sub ∈ p.subsets, ∀ d info v, some (d, info, v) ∈ reported sub → EncodeSpec.Proper info v) →
      (∀ sub ∈ p'.subsets, ∀ d info v, some (d, info, v) ∈ reported sub → EncodeSpec.Proper info v) →
      ∃ (d d' : Draft) (junk bs rest junk' bs' rest' : List UInt8), d.StandsIn input junk bs rest ∧ d'.StandsIn input' junk' bs' rest' ∧
        ∀ (j j' : Nat) (sub sub' : Subset F), p.subsets[j]? = some sub → p'.subsets[j']? = some sub' →
          ∀ (k : Nat) (desc : NodeDesc) (info : PackingInfo F), plan[k]? = some (desc, info) →
            bitsAt d.data (j * plan.width + plan.offset k) info.nbits.toNat =
              bitsAt d'.data (j' * plan.width + plan.offset k) info.nbits.toNat →
            (reported sub)[k]? = (reported sub')[k]? := by
  obtain ⟨plan, hp, -⟩ := C123_plan (F := F) compatible ns hst hsim
  refine ⟨plan, fun c c' hc hc' hcc hcc' s s1 s' s1' m m' input input' q q' hs hs' h h' h1 h1' h2 h2' h3 h3' p p' h4 h4' h5 h5' => ?_⟩
  obtain ⟨d, junk, bs, rest, k1, -, -, -, k5⟩ := hp c hc hcc s s1 m input q hs h h1 h2 h3 p h4 h5
  obtain ⟨d', junk', bs', rest', k1', -, -, -, k5'⟩ := hp c' hc' hcc' s' s1' m' input' q' hs' h' h1' h2' h3' p' h4' h5'
  refine ⟨d, d', junk, bs, rest, junk', bs', rest', k1, k1', fun j j' sub sub' hj hj' k desc info hk e => ?_⟩
  obtain ⟨v, g1, g2⟩ := (k5 j sub hj).2 k desc info hk
  obtain ⟨v', g1', g2'⟩ := (k5' j' sub' hj').2 k desc info hk
  rw [g1, g1', List.cons.inj (single_fun g2 g2' e) |>.1]

/-- **C123**, and damage shows: with doubles, where the packing is lossless (C121), values at the same place are the same exactly if their
bits are. -/
theorem C123_exactly (compatible : Bool) (ns : List Ast) (hst : Unvarying ns) (hsim : simpleL true ns = true) :
    ∃ plan : Plan Double, ∀ (c c' : FacCfg), c.inputType = .binary → c'.inputType = .binary → c.compatible = compatible →
      c'.compatible = compatible → ∀ (s s1 s' s1' : Fac Double) (m m' : Message Double) (input input' : List UInt8) (q q' : Int),
      s.r = .bin ⟨BitReader.bitsOfBytes input, 8 * q⟩ → s'.r = .bin ⟨BitReader.bitsOfBytes input', 8 * q'⟩ →
      Runtime.run c s = (.ok m, s1) → Runtime.run c' s' = (.ok m', s1') →
      fieldValue m 3 "isCompressed" = some (.bool false) → fieldValue m' 3 "isCompressed" = some (.bool false) →
      LocalFits m → LocalFits m' → Means c m ns → Means c' m' ns → ∀ p p', payloadOf m = some p → payloadOf m' = some p' →
      (∀ sub ∈ p.subsets, ∀ d info v, some (d, info, v) ∈ reported sub → EncodeSpec.Proper info v) →
      (∀ sub ∈ p'.subsets, ∀ d info v, some (d, info, v) ∈ reported sub → EncodeSpec.Proper info v) →
      ∃ (d d' : Draft) (junk bs rest junk' bs' rest' : List UInt8), d.StandsIn input junk bs rest ∧ d'.StandsIn input' junk' bs' rest' ∧
        ∀ (j j' : Nat) (sub sub' : Subset Double), p.subsets[j]? = some sub → p'.subsets[j']? = some sub' →
          ∀ (k : Nat) (desc : NodeDesc) (info : PackingInfo Double), plan[k]? = some (desc, info) →
            AccuracySpec.Lossless info → (bitsAt d.data (j * plan.width + plan.offset k) info.nbits.toNat =
              bitsAt d'.data (j' * plan.width + plan.offset k) info.nbits.toNat ↔
            (reported sub)[k]? = (reported sub')[k]?) := by
  obtain ⟨plan, hp, -⟩ := C123_plan (F := Double) compatible ns hst hsim
  refine ⟨plan, fun c c' hc hc' hcc hcc' s s1 s' s1' m m' input input' q q' hs hs' h h' h1 h1' h2 h2' h3 h3' p p' h4 h4' h5 h5' => ?_⟩
  obtain ⟨d, junk, bs, rest, k1, -, -, -, k5⟩ := hp c hc hcc s s1 m input q hs h h1 h2 h3 p h4 h5
  obtain ⟨d', junk', bs', rest', k1', -, -, -, k5'⟩ := hp c' hc' hcc' s' s1' m' input' q' hs' h' h1' h2' h3' p' h4' h5'
  refine ⟨d, d', junk, bs, rest, junk', bs', rest', k1, k1', fun j j' sub sub' hj hj' k desc info hk hl => ?_⟩
  obtain ⟨v, g1, g2⟩ := (k5 j sub hj).2 k desc info hk
  obtain ⟨v', g1', g2'⟩ := (k5' j' sub' hj').2 k desc info hk
  rw [g1, g1']
  constructor
  · intro e
    rw [List.cons.inj (single_fun g2 g2' e) |>.1]
  · intro e
    have hv : v = v' := by
      have := Option.some.inj (Option.some.inj e)
      exact congrArg (fun x => x.2.2) this
    rw [← hv] at g2'
    exact single_unique hl g2 g2'

namespace FixedExample
open MessageExample AcceptExample LosslessExample

/-- The template of one temperature, and a message of two subsets. -/
example : ∃ (plan : Plan Double) (d : Draft) (p : Payload Double), p.subsets.length = 2 ∧ d.Sound ∧ d.data.length = 2 * plan.width ∧
    plan.length = 1 := by
  obtain ⟨plan, hp, -⟩ := C123_plan (F := Double) false tree (by decide) (by decide)
  obtain ⟨m, s1, p, h, h1, h2, h3, h4, h5, h6⟩ := runs [0x42, 0x55] (by decide)
  have hl : p.subsets.length = 2 := by simpa using congrArg List.length h5
  obtain ⟨d, -, -, -, -, k1, -, k2, k3⟩ := hp cfg rfl rfl _ s1 m _ 0 rfl h h1 h2 h3 p h4 fun sub hsub =>
    h6 _ (h5 ▸ List.mem_map_of_mem hsub)
  refine ⟨plan, d, p, hl, k1, by rw [k2, hl], ?_⟩
  obtain ⟨sub, hsub⟩ : ∃ sub, p.subsets[0]? = some sub := ⟨_, List.getElem?_eq_getElem (by omega)⟩
  rw [← (k3 0 sub hsub).1]
  have : (p.subsets.map reported)[0]? = some (reported sub) := by rw [List.getElem?_map, hsub]; rfl
  rw [h5] at this
  rw [← Option.some.inj this]
  rfl

/-- The compressed one. -/
example : ∃ (plan : Plan Double) (p : Payload Double), p.subsets.length = 2 ∧ ∀ sub ∈ p.subsets, (reported sub).length = plan.length := by
  obtain ⟨plan, -, hp⟩ := C123_plan (F := Double) false tree (by decide) (by decide)
  obtain ⟨m, s1, p, h, h1, h0, h2, h3, h4, h5, h6⟩ := (C100_compressed_exactly (F := Double) cfg rfl
    (Fac.new (.bin ⟨BitReader.bitsOfBytes ([] ++ bytes4 ++ [7]), 8 * 0⟩)) _ 0 rfl (by decide) _).2
    ⟨draft4, [], bytes4, [7], 2, _, ⟨rfl, by decide, by decide +kernel⟩, sound4, ⟨group, rootDescriptor, found, parsed⟩, by decide,
      ⟨rfl, rfl, codedC⟩, rfl⟩
  refine ⟨plan, p, by simpa using congrArg List.length h5, fun sub hsub => ?_⟩
  exact (hp cfg rfl rfl _ s1 m _ 0 rfl h h1 h0 h2 h3 p h4 (fun sub hsub => h6 _ (h5 ▸ List.mem_map_of_mem hsub)) sub hsub).1

/-- The message in two places: the hypotheses of `C123_local`. -/
example : ∃ (d d' : Draft) (input input' : List UInt8) (junk bs rest junk' bs' rest' : List UInt8), input ≠ input' ∧
    d.StandsIn input junk bs rest ∧ d'.StandsIn input' junk' bs' rest' := by
  obtain ⟨plan, hp⟩ := C123_local (F := Double) false tree (by decide) (by decide)
  obtain ⟨m, s1, p, h, h1, h2, h3, h4, h5, h6⟩ := runs [0x42, 0x55] (by decide)
  obtain ⟨m', s1', p', h', h1', h2', h3', h4', h5', h6'⟩ := runs [] (by decide)
  obtain ⟨d, d', junk, bs, rest, junk', bs', rest', k, k', -⟩ := hp cfg cfg rfl rfl rfl rfl _ s1 _ s1' m m' _ _ 0 0 rfl rfl h h'
    h1 h1' h2 h2' h3 h3' p p' h4 h4' (fun sub hsub => h6 _ (h5 ▸ List.mem_map_of_mem hsub))
    (fun sub hsub => h6' _ (h5' ▸ List.mem_map_of_mem hsub))
  exact ⟨d, d', _, _, junk, bs, rest, junk', bs', rest', by decide, k, k'⟩

/-- The same for `C123_exactly`; the packing is lossless. -/
example : AccuracySpec.Lossless info ∧ ∃ (d d' : Draft) (input input' : List UInt8) (junk bs rest junk' bs' rest' : List UInt8), input ≠ input' ∧
    d.StandsIn input junk bs rest ∧ d'.StandsIn input' junk' bs' rest' := by
  refine ⟨info_lossless, ?_⟩
  obtain ⟨plan, hp⟩ := C123_exactly false tree (by decide) (by decide)
  obtain ⟨m, s1, p, h, h1, h2, h3, h4, h5, h6⟩ := runs [0x42, 0x55] (by decide)
  obtain ⟨m', s1', p', h', h1', h2', h3', h4', h5', h6'⟩ := runs [] (by decide)
  obtain ⟨d, d', junk, bs, rest, junk', bs', rest', k, k', -⟩ := hp cfg cfg rfl rfl rfl rfl _ s1 _ s1' m m' _ _ 0 0 rfl rfl h h'
    h1 h1' h2 h2' h3 h3' p p' h4 h4' (fun sub hsub => h6 _ (h5 ▸ List.mem_map_of_mem hsub))
    (fun sub hsub => h6' _ (h5' ▸ List.mem_map_of_mem hsub))
  exact ⟨d, d', _, _, junk, bs, rest, junk', bs', rest', by decide, k, k'⟩

/-- A count of repetitions and the repeated temperature: not such a template. -/
example : ¬ Unvarying [.delayedRepl ⟨101000, .r []⟩ (.element ⟨31001, .b AcceptExample.temperature⟩ false :: tree)] := by decide

end FixedExample

end Gobufr
