import Verif.Spec.Recast
import Verif.Proofs.Transcode
import Verif.Proofs.EncodeJson
import Verif.Props.Decoded
import Verif.Props.Transcode

/-!
# Messages in the other form
-/

namespace Gobufr
open Spec Layout Flat EncodeSpec

variable {F : Type}

/-- Zeros up to the end of a byte. -/
def padding (data : List Bool) : List Bool := List.replicate ((8 - data.length % 8) % 8) false

theorem padding_length (data : List Bool) : (data ++ padding data).length = 8 * ((data.length + 7) / 8) := by
  simp only [padding, List.length_append, List.length_replicate]
  omega

/-- The draft with other data. -/
def recast (d : Draft) (flag : Nat) (data : List Bool) : Draft :=
  { d with
    data := data, pad4 := padding data,
    head := fun n name =>
      if n = 3 ∧ name = "isCompressed" then flag
      else if n = 4 ∧ name = "lengthInBytes" then 4 + (data.length + 7) / 8
      else if n = 0 ∧ name = "totalLengthInBytes" then
        ((d.bits.length - (d.data ++ d.pad4).length) / 8 + (data.length + 7) / 8) % 2 ^ 24
      else d.head n name }

theorem recast_head {d : Draft} {flag : Nat} {data : List Bool} {n : Nat} {name : String} (h : (n, name) ∉ formal) :
    (recast d flag data).head n name = d.head n name := by
  simp only [formal, List.mem_cons, Prod.mk.injEq, List.not_mem_nil, or_false, not_or] at h
  simp only [recast, h, if_false]

theorem recast_flag {d : Draft} {flag : Nat} {data : List Bool} : (recast d flag data).head 3 "isCompressed" = flag := rfl

theorem recast_length {d : Draft} {flag : Nat} {data : List Bool} :
    (recast d flag data).head 4 "lengthInBytes" = 4 + (data.length + 7) / 8 := rfl

theorem headBits_length (v : String → Nat) (fs : List FieldShape) :
    (headBits v fs).length = (fs.map fun f => f.width.getD 0).sum := by
  induction fs with
  | nil => rfl
  | cons f fs ih =>
    obtain ⟨n, w⟩ := f
    cases w <;> simp_all [headBits]

theorem part_recast {d : Draft} {flag : Nat} {data : List Bool} {x : SectionShape} (h : x.number ≠ 4) :
    ((recast d flag data).part x).length = (d.part x).length := by
  unfold Draft.part
  rw [List.length_append, List.length_append, headBits_length, headBits_length]
  congr 2
  unfold Draft.tail
  split <;> first | rfl | (rename_i e; exact absurd e h)

theorem mem_sections {d : Draft} {x : SectionShape} : x ∈ d.sections ↔ x = indicator ∨
    x = (if d.edition = 4 then identification4 else identification3) ∨ (d.locals.isSome = true ∧ x = optional) ∨
    x = description ∨ x = data ∨ x = ending := by
  unfold Draft.sections Layout.sections
  cases hl : d.locals.isSome <;> simp

theorem recast_sound {d : Draft} (hd : d.Sound) {flag : Nat} (hf : flag < 2) {data : List Bool} (hr : Room data.length) :
    (recast d flag data).Sound := by
  have hsec : (recast d flag data).sections = d.sections := rfl
  refine ⟨hd.edition, ?_, ?_, hd.signature, hd.number, hd.flag, hd.descriptors, hd.pad3⟩
  · intro x hx f hf' w hw
    by_cases hform : (x.number, f.name) ∈ formal
    · rw [hsec, mem_sections] at hx
      simp only [formal, List.mem_cons, Prod.mk.injEq, List.not_mem_nil, or_false] at hform
      rcases hform with ⟨e1, e2⟩ | ⟨e1, e2⟩ | ⟨e1, e2⟩
      · rw [e1, e2]
        have : x = indicator := by
          rcases hx with rfl | rfl | ⟨-, rfl⟩ | rfl | rfl | rfl
          · rfl
          · split at e1 <;> cases e1
          all_goals cases e1
        subst this
        have : w = 24 := by
          simp only [indicator, List.mem_cons, List.not_mem_nil, or_false] at hf'
          rcases hf' with rfl | rfl | rfl <;> first | (exact absurd e2 (by decide)) | (cases hw; rfl)
        subst this
        exact Nat.mod_lt _ (by decide)
      · rw [e1, e2]
        have : x = description := by
          rcases hx with rfl | rfl | ⟨-, rfl⟩ | rfl | rfl | rfl
          · cases e1
          · split at e1 <;> cases e1
          · cases e1
          · rfl
          all_goals cases e1
        subst this
        have : w = 1 := by
          simp only [description, List.mem_cons, List.not_mem_nil, or_false] at hf'
          rcases hf' with rfl | rfl | rfl | rfl | rfl | rfl | rfl <;> first | (exact absurd e2 (by decide)) | (cases hw; rfl)
        subst this
        exact hf
      · rw [e1, e2]
        have : x = Layout.data := by
          rcases hx with rfl | rfl | ⟨-, rfl⟩ | rfl | rfl | rfl
          · cases e1
          · split at e1 <;> cases e1
          · cases e1
          · cases e1
          · rfl
          · cases e1
        subst this
        have : w = 24 := by
          simp only [Layout.data, List.mem_cons, List.not_mem_nil, or_false] at hf'
          rcases hf' with rfl | rfl | rfl <;> first | (exact absurd e2 (by decide)) | (cases hw; rfl)
        subst this
        exact hr
    · rw [recast_head hform]
      exact hd.fits x hx f hf' w hw
  · intro x hx hl
    by_cases h4 : x.number = 4
    · rw [hsec, mem_sections] at hx
      have : x = Layout.data := by
        rcases hx with rfl | rfl | ⟨-, rfl⟩ | rfl | rfl | rfl
        · cases h4
        · split at h4 <;> cases h4
        · cases h4
        · cases h4
        · rfl
        · cases h4
      subst this
      show (4 + (data.length + 7) / 8) * 8 = (headBits _ _ ++ (data ++ padding data)).length
      rw [List.length_append, padding_length, headBits_length]
      show _ = 32 + _
      omega
    · rw [part_recast h4, recast_head, hd.lengths x hx hl]
      simp only [formal, List.mem_cons, Prod.mk.injEq, List.not_mem_nil, or_false]
      rintro (⟨-, h⟩ | ⟨-, h⟩ | ⟨h, -⟩)
      · exact absurd h (by decide)
      · exact absurd h (by decide)
      · exact h4 h

/-- A message takes whole bytes. -/
theorem draft_bytes {d : Draft} (hd : d.Sound) : ∃ bs : List UInt8, BitReader.bitsOfBytes bs = d.bits := by
  have hx : ∀ x ∈ d.sections, (d.part x).length % 8 = 0 := by
    intro x hx
    by_cases hl : fixed "lengthInBytes" 24 ∈ x.fields
    · have := hd.lengths x hx hl
      omega
    · rw [mem_sections] at hx
      rcases hx with rfl | rfl | ⟨-, rfl⟩ | rfl | rfl | rfl
      · rw [part0, Draft.head0, declBits_length]; rfl
      · exact absurd (by split <;> decide) hl
      · exact absurd (by decide) hl
      · exact absurd (by decide) hl
      · exact absurd (by decide) hl
      · rw [part5, Draft.head5, declBits_length]; rfl
  have hall : ∀ l : List SectionShape, (∀ x ∈ l, (d.part x).length % 8 = 0) → (l.flatMap d.part).length % 8 = 0 := by
    intro l
    induction l with
    | nil => exact fun _ => rfl
    | cons a l ih =>
      intro h
      have h1 := h a List.mem_cons_self
      have h2 := ih fun x hx => h x (List.mem_cons_of_mem _ hx)
      rw [List.flatMap_cons, List.length_append]
      omega
  have h8 : d.bits.length % 8 = 0 := hall _ hx
  exact ⟨_, (bitsOfBytes_bytesOfBits (d.bits.length / 8) d.bits (by omega)).1⟩

/-- How long the message is in the other form. -/
theorem recast_bits {d : Draft} {flag : Nat} {data : List Bool} {bs : List UInt8}
    (hbs : BitReader.bitsOfBytes bs = (recast d flag data).bits) :
    (recast d flag data).head 0 "totalLengthInBytes" = bs.length % 2 ^ 24 := by
  show ((d.bits.length - (d.data ++ d.pad4).length) / 8 + (data.length + 7) / 8) % 2 ^ 24 = _
  have h1 := congrArg List.length hbs
  rw [BitReader.bitsOfBytes_length, draft_bits] at h1
  have h2 := congrArg List.length (draft_bits d)
  have h3 : (recast d flag data).head0.length = d.head0.length := by rw [Draft.head0, Draft.head0, declBits_length, declBits_length]
  have h4 : (recast d flag data).head1.length = d.head1.length := by
    rw [Draft.head1, Draft.head1, declBits_length, declBits_length]; rfl
  have h5 : (recast d flag data).head3.length = d.head3.length := by rw [Draft.head3, Draft.head3, declBits_length, declBits_length]
  have h6 : (recast d flag data).head4.length = d.head4.length := by rw [Draft.head4, Draft.head4, declBits_length, declBits_length]
  have h7 : (recast d flag data).head5.length = d.head5.length := by rw [Draft.head5, Draft.head5, declBits_length, declBits_length]
  have h8 : (recast d flag data).bits2.length = d.bits2.length := by
    unfold Draft.bits2
    rw [show (recast d flag data).locals = d.locals from rfl]
    cases d.locals with
    | none => rfl
    | some l => simp only [List.length_append, Draft.head2, declBits_length]
  have h9 := padding_length data
  simp only [List.length_append] at h1 h2 h9 ⊢
  rw [h3, h4, h5, h6, h7, h8] at h1
  have e1 : (recast d flag data).pad1 = d.pad1 := rfl
  have e2 : (recast d flag data).pad3 = d.pad3 := rfl
  have e3 : (recast d flag data).ids = d.ids := rfl
  have e4 : (recast d flag data).data = data := rfl
  have e5 : (recast d flag data).pad4 = padding data := rfl
  rw [e1, e2, e3, e4, e5] at h1
  congr 1
  omega

theorem Denotes.unique {k : Kind} {l : List Bool} {v w : Val F} (hk : k ≠ .bits) (h1 : Denotes k l v) (h2 : Denotes k l w) : v = w := by
  cases k with
  | number => exact (show v = _ from h1).trans (show w = _ from h2).symm
  | flag =>
    obtain ⟨b, e1, rfl⟩ := h1
    obtain ⟨b', e2, rfl⟩ := h2
    rw [e1] at e2
    cases e2
    rfl
  | text =>
    obtain ⟨b, e1, rfl⟩ := h1
    obtain ⟨b', e2, rfl⟩ := h2
    rw [e1] at e2
    have := bytes_inj (a := b) (b := b') (by
      simp only [BitReader.bitsOfBytes, show byteBits = fun b => natBits 8 b.toNat from funext byteBits_natBits]
      exact e2)
    rw [this]
  | bits => exact absurd rfl hk

/-- What the message says in both forms. -/
theorem recast_says {d : Draft} {flag : Nat} {data : List Bool} {m m' : Message F} (h : d.Says m)
    (h' : (recast d flag data).Says m') : SameHead m m' := by
  refine ⟨⟨d.edition, d.locals.isSome, h.sections, h'.sections, ?_⟩, _, h.template, h'.template⟩
  intro x hx f hf w hw hk hn
  obtain ⟨v, h1, h2⟩ := h.fields x hx f hf w hw hk
  obtain ⟨v', h3, h4⟩ := h'.fields x hx f hf w hw hk
  rw [recast_head hn] at h4
  rw [Denotes.unique hk h4 h2] at h3
  exact ⟨v, h1, h3⟩

/-- A wire on which values take a given number of bits. -/
def SizedWire (size : PackingInfo F → List (Val F) → Nat) (W : Wire F Bool) : Wire F Bool := fun info b vs =>
  W info b vs ∧ b.length = size info vs

theorem sum_cast (l : List Nat) : ((l.map fun n : Nat => (n : Int)).sum) = (l.sum : Nat) := by
  induction l with
  | nil => rfl
  | cons a l ih => simp [ih]

theorem sized_length [GoFloat F] {size : PackingInfo F → List (Val F) → Nat} {W : Wire F Bool} {b : Bool} {x y : Ctx}
    {ts : List Ast} {bits : List Bool} {is : List (Datum F)} (h : Coded (SizedWire size W) b x ts bits is y) :
    bits.length = (is.map fun i => size i.info i.vals).sum := by
  have := h.measure (g := fun info vs => (size info vs : Nat)) (fun info b vs hw => by rw [hw.2])
  have e := sum_cast (is.map fun i => size i.info i.vals)
  rw [List.map_map] at e
  exact Int.ofNat_inj.1 (this.trans e)

/-- The items of subset `j`. -/
def slice (is : List (Datum F)) (j : Nat) : List (Datum F) := is.map fun i => ⟨i.desc, i.info, [i.vals.getD j .nil]⟩

theorem written_slice (is : List (Datum F)) (j : Nat) : written (slice is j) 0 = written is j := by
  simp [slice, written, Function.comp_def]

/-- From columns to one subset. -/
theorem slice_coded [GoFloat F] {W W' : Wire F Bool} {b : Bool} {ns : List Ast} {bits : List Bool} {is : List (Datum F)} {y : Ctx}
    (h : Coded W b {} ns bits is y) (hreg : regularL ns = true) {k : Nat} (hlen : ∀ i ∈ is, i.vals.length = k)
    (hf : SameFactors ((List.range k).map (written is))) {j : Nat} (hj : j < k)
    (hw : ∀ i ∈ is, ∃ bs, W' i.info bs [i.vals.getD j .nil]) : ∃ bs, Coded W' b {} ns bs (slice is j) y := by
  refine h.recode hreg (Paired.of_getElem (by simp [slice]) ?_)
  intro m i i' hm hm'
  have hm2 : i' = ⟨i.desc, i.info, [i.vals.getD j .nil]⟩ := by
    simp only [slice, List.getElem?_map, hm, Option.map_some, Option.some.injEq] at hm'
    exact hm'.symm
  subst hm2
  have hmem : i ∈ is := List.mem_of_getElem? hm
  refine ⟨rfl, rfl, hw i hmem, ?_⟩
  intro d' hd hsh
  have hl := hlen i hmem
  match hv : i.vals with
  | [] => rw [hv] at hl; simp at hl; omega
  | v :: vs =>
    refine ⟨v, vs, _, [], rfl, rfl, ?_, by simp⟩
    have := hf (written is 0) (List.mem_map.2 ⟨0, List.mem_range.2 (by omega), rfl⟩) m d' i.info v
      (by simp [written, hm, hd, hv]) hsh (i.vals.getD j .nil) (by
        rw [valuesAt_written is _ hm]
        exact List.mem_map.2 ⟨j, List.mem_range.2 hj, rfl⟩)
    rw [← hv]
    exact this.1.symm

/-- The items of all subsets in columns. -/
def stack (is : List (Datum F)) (xs : Grid F) : List (Datum F) := is.mapIdx fun m i => ⟨i.desc, i.info, valuesAt xs m⟩

/-- From the first subset to columns. -/
theorem stack_coded [GoFloat F] {W W' : Wire F Bool} {b : Bool} {ns : List Ast} {bits : List Bool} {is : List (Datum F)} {y : Ctx}
    (h : Coded W b {} ns bits is y) (hreg : regularL ns = true) (hone : ∀ i ∈ is, ∃ v, i.vals = [v]) {xs xt : Grid F}
    (hxs : xs = written is 0 :: xt) (hf : SameFactors xs)
    (hw : ∀ (m : Nat) (d : NodeDesc) (info : PackingInfo F) (v : Val F), (written is 0)[m]? = some (some (d, info, v)) →
      ∃ bits, W' info bits (valuesAt xs m)) : ∃ bits, Coded W' b {} ns bits (stack is xs) y := by
  refine h.recode hreg (Paired.of_getElem (by simp [stack]) ?_)
  intro m i i' hm hm'
  have hm2 : i' = ⟨i.desc, i.info, valuesAt xs m⟩ := by
    simp only [stack, List.getElem?_mapIdx, hm, Option.map_some, Option.some.injEq] at hm'
    exact hm'.symm
  subst hm2
  have hx0 : written is 0 ∈ xs := by rw [hxs]; exact List.mem_cons_self
  have hrow : (written is 0)[m]? = some (some (i.desc, i.info, i.vals.getD 0 .nil)) := by simp [written, hm]
  refine ⟨rfl, rfl, hw m _ _ _ hrow, ?_⟩
  intro d' hd' hsh'
  obtain ⟨v, hv⟩ := hone i (List.mem_of_getElem? hm)
  have hat : valuesAt xs m = v :: valuesAt xt m := by
    rw [hxs]
    simp [valuesAt, written, hm, hv]
  refine ⟨v, [], v, _, hv, hat, rfl, ?_⟩
  intro w hw'
  refine (hf _ hx0 m d' i.info v (by rw [hrow, hd', hv]; rfl) hsh' w ?_).2
  rw [hat]
  exact List.mem_cons_of_mem _ hw'

theorem stack_written {is : List (Datum F)} {xs xt : Grid F} (hxs : xs = written is 0 :: xt) (hsh : SameShape xs) :
    (List.range xs.length).map (written (stack is xs)) = xs := by
  have hx0 : written is 0 ∈ xs := by rw [hxs]; exact List.mem_cons_self
  apply List.ext_getElem?
  intro j
  rcases Nat.lt_or_ge j xs.length with hj | hj
  · obtain ⟨x, hx⟩ : ∃ x, xs[j]? = some x := ⟨_, List.getElem?_eq_getElem hj⟩
    rw [List.getElem?_map, List.getElem?_range hj, hx]
    simp only [Option.map_some, Option.some.injEq]
    have hsame := hsh _ hx0 _ (List.mem_of_getElem? hx)
    apply List.ext_getElem?
    intro m
    have hm := congrArg (fun l => l[m]?) hsame
    simp only [List.getElem?_map, written, Option.map_map, Function.comp_def] at hm
    simp only [written, List.getElem?_map, stack, List.getElem?_mapIdx]
    cases hi : is[m]? with
    | none =>
      rw [hi] at hm
      cases hxv : x[m]? with
      | none => rfl
      | some a => rw [hxv] at hm; cases hm
    | some i =>
      rw [hi] at hm
      cases hxv : x[m]? with
      | none => rw [hxv] at hm; cases hm
      | some a =>
        rw [hxv] at hm
        match a with
        | none => simp at hm
        | some (d1, i1, v1) =>
          simp only [Option.map_some, Option.some.injEq, Prod.mk.injEq] at hm
          obtain ⟨rfl, rfl⟩ := hm
          simp [valuesAt, hx, hxv, List.getElem?_map]
  · rw [List.getElem?_eq_none (by simpa using hj), List.getElem?_eq_none (by omega)]

theorem EncodeSpec.Single.length [GoFloat F] {info : PackingInfo F} {b : List Bool} {vs : List (Val F)} (h : Single info b vs) :
    b.length = info.nbits.toNat := by
  cases h with
  | number _ hn => rw [natBits_length, hn]; rfl
  | text _ hn =>
    have : ∀ s : List UInt8, (s.flatMap byteBits).length = 8 * s.length := BitReader.bitsOfBytes_length
    rw [this, hn]; omega
  | signed _ hn => rw [List.length_cons, natBits_length, hn]; rfl
  | skipped _ hn => rw [hn]; rfl

end Gobufr
