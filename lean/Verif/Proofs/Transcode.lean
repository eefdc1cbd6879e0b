import Verif.Proofs.Only
import Verif.Spec.Transcode

/-!
# The same values written by other rules
-/

namespace Gobufr
namespace EncodeSpec
open Flat

variable {F τ τ' : Type}

/-- Two lists related member by member. -/
inductive Paired {α β : Type} (R : α → β → Prop) : List α → List β → Prop where
  | nil : Paired R [] []
  | cons {a : α} {b : β} {as : List α} {bs : List β} : R a b → Paired R as bs → Paired R (a :: as) (b :: bs)

theorem Paired.append_inv {α β : Type} {R : α → β → Prop} : ∀ {a1 a2 : List α} {b : List β}, Paired R (a1 ++ a2) b →
    ∃ b1 b2, b = b1 ++ b2 ∧ Paired R a1 b1 ∧ Paired R a2 b2
  | [], _, b, h => ⟨[], b, rfl, .nil, h⟩
  | _ :: _, _, _, .cons h1 h2 => by
    obtain ⟨b1, b2, rfl, q1, q2⟩ := Paired.append_inv h2
    exact ⟨_ :: b1, b2, rfl, .cons h1 q1, q2⟩

theorem Paired.one_inv {α β : Type} {R : α → β → Prop} {a : α} {bs : List β} (h : Paired R [a] bs) : ∃ b, bs = [b] ∧ R a b := by
  cases h with
  | cons h1 h2 => cases h2; exact ⟨_, rfl, h1⟩

theorem Paired.cons_inv {α β : Type} {R : α → β → Prop} {a : α} {as : List α} {bs : List β} (h : Paired R (a :: as) bs) :
    ∃ b bs', bs = b :: bs' ∧ R a b ∧ Paired R as bs' := by
  cases h with
  | cons h1 h2 => exact ⟨_, _, rfl, h1, h2⟩

theorem Paired.length {α β : Type} {R : α → β → Prop} {as : List α} {bs : List β} (h : Paired R as bs) : bs.length = as.length := by
  induction h with
  | nil => rfl
  | cons _ _ ih => simp [ih]

theorem Paired.map_eq {α β γ : Type} {R : α → β → Prop} {f : α → γ} {g : β → γ} (hr : ∀ a b, R a b → g b = f a) {as : List α}
    {bs : List β} (h : Paired R as bs) : bs.map g = as.map f := by
  induction h with
  | nil => rfl
  | cons h1 _ ih => simp [hr _ _ h1, ih]

theorem Paired.of_getElem {α β : Type} {R : α → β → Prop} : ∀ {as : List α} {bs : List β}, as.length = bs.length →
    (∀ (i : Nat) a b, as[i]? = some a → bs[i]? = some b → R a b) → Paired R as bs
  | [], [], _, _ => .nil
  | [], _ :: _, h, _ => by simp at h
  | _ :: _, [], h, _ => by simp at h
  | a :: as, b :: bs, h, hr => .cons (hr 0 a b rfl rfl) (.of_getElem (by simpa using h) fun i => hr (i + 1))

theorem Paired.getLast {α β : Type} {R : α → β → Prop} {as : List α} {bs : List β} (h : Paired R as bs) :
    ∀ {a : α}, as.getLast? = some a → ∃ b, bs.getLast? = some b ∧ R a b := by
  induction h with
  | nil => simp
  | @cons a b as bs h1 h2 ih =>
    intro a' e
    cases h2 with
    | nil =>
      cases e
      exact ⟨b, rfl, h1⟩
    | cons =>
      rw [List.getLast?_cons_cons] at e ⊢
      exact ih e

/-- An item by other rules: the same element in the same packing, with values that can be written; those that shape the
data have the same number. -/
structure Recoded [GoFloat F] (W' : Wire F τ') (i i' : Datum F) : Prop where
  desc : i'.desc = i.desc
  info : i'.info = i.info
  wire : ∃ b, W' i.info b i'.vals
  shape : ∀ d, i.desc = ⟨some d, false⟩ → shaping d = true → ∃ v vs v' vs', i.vals = v :: vs ∧ i'.vals = v' :: vs' ∧
    numberOf v' = numberOf v ∧ ∀ w ∈ vs', Alike v' w

theorem Recoded.eq [GoFloat F] {W' : Wire F τ'} {i i' : Datum F} (h : Recoded W' i i') : i' = ⟨i.desc, i.info, i'.vals⟩ := by
  obtain ⟨h1, h2, -, -⟩ := h
  cases i'
  cases h1
  cases h2
  rfl

theorem add_recoded [GoFloat F] {W' : Wire F τ'} {is is' : List (Datum F)} (h : Paired (Recoded W') is is') (x : Ctx) :
    x.add is' = x.add is := by
  unfold Ctx.add
  rw [Paired.map_eq (f := Datum.desc) (fun a b h => h.desc) h]

theorem marksL_append : ∀ {as bs : List Ast}, marksL (as ++ bs) = (marksL as && marksL bs)
  | [], _ => by simp [marksL]
  | a :: as, bs => by simp [marksL, marksL_append (as := as), Bool.and_assoc]

theorem marksL_repeat {ms : List Ast} (h : marksL ms = true) : ∀ k, marksL (List.replicate k ms).flatten = true
  | 0 => rfl
  | k + 1 => by simp [List.replicate_succ, marksL_append, h, marksL_repeat h k]

theorem regularL_append : ∀ {as bs : List Ast}, regularL (as ++ bs) = (regularL as && regularL bs)
  | [], _ => by simp [regularL]
  | a :: as, bs => by simp [regularL, regularL_append (as := as), Bool.and_assoc]

theorem regularL_repeat {ms : List Ast} (h : regularL ms = true) : ∀ k, regularL (List.replicate k ms).flatten = true
  | 0 => rfl
  | k + 1 => by simp [List.replicate_succ, regularL_append, h, regularL_repeat h k]

/-- The items of such nodes. -/
theorem coded_marks [GoFloat F] {W : Wire F τ} {compatible : Bool} {x y : Ctx} {ts : List Ast} {bits : List τ}
    {is : List (Datum F)} (hc : Coded W compatible x ts bits is y) : marksL ts = true →
    ∀ i ∈ is, ∃ d, i.desc = ⟨some d, false⟩ ∧ shaping d = true := by
  induction hc with
  | nil => simp
  | @element x y ts bs is d e ab vb as vs he ha hw _ ih =>
    intro h
    simp only [marksL, marks, Bool.and_eq_true] at h
    have hx : d.id.X = 31 := by
      have := h.1
      simp only [shaping, Bool.and_eq_true, beq_iff_eq] at this
      exact this.1
    rw [if_pos hx] at ha
    cases ha
    intro i hi
    simp only [List.nil_append, List.singleton_append, List.mem_cons] at hi
    rcases hi with rfl | hi
    · exact ⟨d, rfl, h.1⟩
    · exact ih h.2 i hi
  | absent _ ih =>
    intro h
    simp only [marksL, Bool.and_eq_true] at h
    exact ih h.2
  | sequence _ ih =>
    intro h
    simp only [marksL, marks, Bool.and_eq_true] at h
    exact ih (by simp [marksL_append, h])
  | fixed _ ih =>
    intro h
    simp only [marksL, marks, Bool.and_eq_true] at h
    exact ih (by simp [marksL_append, h, marksL_repeat h.1])
  | delayed _ _ _ _ _ _ ih1 ih2 =>
    intro h
    simp only [marksL, marks, Bool.and_eq_true] at h
    intro i hi
    rcases List.mem_append.1 hi with hi | hi
    · exact ih1 (by simp [marksL, h]) i hi
    · exact ih2 (by simp [marksL_append, h, marksL_repeat h.1.2]) i hi
  | _ => intro h; simp [marksL, marks] at h

theorem assocs_recode [GoFloat F] {W : Wire F τ} {W' : Wire F τ'} {d : Desc} {ws : List Int} {b : List τ} {is : List (Datum F)}
    (ha : Assocs W d ws b is) : ∀ {is' : List (Datum F)}, Paired (Recoded W') is is' → ∃ b', Assocs W' d ws b' is' := by
  induction ha with
  | nil => rintro _ ⟨⟩; exact ⟨_, .nil⟩
  | cons hw _ ih =>
    intro is' hp
    obtain ⟨i', is', rfl, h1, h2⟩ := hp.cons_inv
    obtain ⟨b', hb⟩ := ih h2
    obtain ⟨b1, hw'⟩ := h1.wire
    rw [h1.eq]
    exact ⟨_, .cons hw' hb⟩

theorem zero_recode [GoFloat F] {W : Wire F τ} {W' : Wire F τ'} {compatible : Bool} {d : Desc} {b : List τ}
    {is is' : List (Datum F)} (hz : Zero W compatible d b is) (hp : Paired (Recoded W') is is') :
    ∃ b', Zero W' compatible d b' is' := by
  cases hz with
  | off h => cases hp; exact ⟨_, .off h⟩
  | on h hw =>
    obtain ⟨i', rfl, h1⟩ := hp.one_inv
    obtain ⟨b1, hw'⟩ := h1.wire
    rw [h1.eq]
    exact ⟨_, .on h hw'⟩

theorem recoded_bits [GoFloat F] {W' : Wire F τ'} {is is' : List (Datum F)} (h : Paired (Recoded W') is is') :
    (∀ i ∈ is, ∃ d, i.desc = ⟨some d, false⟩ ∧ shaping d = true) →
    is'.map (fun i => i.vals.head?.bind numberOf) = is.map (fun i => i.vals.head?.bind numberOf) := by
  induction h with
  | nil => exact fun _ => rfl
  | cons g1 _ ih =>
    intro hm
    obtain ⟨d', e1, e2⟩ := hm _ List.mem_cons_self
    obtain ⟨u, us, u', us', f1, f2, f3, -⟩ := g1.shape d' e1 e2
    have := ih fun i hi => hm i (List.mem_cons_of_mem _ hi)
    simp only [List.map_cons, f1, f2, List.head?_cons, Option.bind_some, f3, this]

/-- What was written by some rules can be written by others. -/
theorem Coded.recode [GoFloat F] {W : Wire F τ} {W' : Wire F τ'} {compatible : Bool} {x y : Ctx} {ts : List Ast} {bits : List τ}
    {is : List (Datum F)} (hc : Coded W compatible x ts bits is y) : regularL ts = true → ∀ {is' : List (Datum F)},
    Paired (Recoded W') is is' → ∃ bits', Coded W' compatible x ts bits' is' y := by
  induction hc with
  | nil => rintro - _ ⟨⟩; exact ⟨_, .nil⟩
  | element he ha hw _ ih =>
    intro h is' hp
    simp only [regularL, Bool.and_eq_true] at h
    obtain ⟨p1, i3, rfl, hp, h3⟩ := hp.append_inv
    have hp' := hp
    obtain ⟨i1, i2, rfl, h1, h2⟩ := hp.append_inv
    obtain ⟨i', rfl, q2⟩ := h2.one_inv
    obtain ⟨_, ha'⟩ := assocs_recode ha h1
    obtain ⟨_, hw'⟩ := q2.wire
    obtain ⟨_, hr⟩ := ih h.2 h3
    rw [← add_recoded hp', q2.eq] at hr
    rw [q2.eq]
    exact ⟨_, .element he ha' hw' hr⟩
  | absent _ ih =>
    intro h is' hp
    simp only [regularL, Bool.and_eq_true] at h
    obtain ⟨_, hr⟩ := ih h.2 hp
    exact ⟨_, .absent hr⟩
  | significance he hw _ ih =>
    intro h is' hp
    simp only [regularL, Bool.and_eq_true] at h
    obtain ⟨i', is', rfl, q1, q2⟩ := hp.cons_inv
    obtain ⟨_, hw'⟩ := q1.wire
    obtain ⟨_, hr⟩ := ih h.2 q2
    rw [← add_recoded (.cons q1 .nil), q1.eq] at hr
    rw [q1.eq]
    exact ⟨_, .significance he hw' hr⟩
  | sequence _ ih =>
    intro h is' hp
    simp only [regularL, regular, Bool.and_eq_true] at h
    obtain ⟨_, hr⟩ := ih (by simp [regularL_append, h]) hp
    exact ⟨_, .sequence hr⟩
  | notPresent _ ih =>
    intro h is' hp
    simp only [regularL, regular, Bool.and_eq_true] at h
    obtain ⟨_, hr⟩ := ih (by simp [regularL_append, h]) hp
    exact ⟨_, .notPresent hr⟩
  | fixed _ ih =>
    intro h is' hp
    simp only [regularL, regular, Bool.and_eq_true] at h
    obtain ⟨_, hr⟩ := ih (by simp [regularL_append, h, regularL_repeat h.1]) hp
    exact ⟨_, .fixed hr⟩
  | @delayed x z y ts ms m fb bs fs is d v vs k it hf h1 h2 h3 h4 _ ih1 ih2 =>
    intro h is' hp
    simp only [regularL, regular, Bool.and_eq_true] at h
    obtain ⟨⟨⟨hm, hms⟩, hsh⟩, hts⟩ := h
    obtain ⟨i1, i2, rfl, p1, p2⟩ := hp.append_inv
    obtain ⟨_, r1⟩ := ih1 (by simp [regularL, hm]) p1
    obtain ⟨_, r2⟩ := ih2 (by simp [regularL_append, hts, regularL_repeat hms]) p2
    have hmk : marksL [m] = true := by
      cases m with
      | element d np => simpa [marksL, marks] using hsh
      | _ => cases hsh
    obtain ⟨d', e1, e2⟩ := coded_marks hf hmk it (List.mem_of_getLast? h1)
    obtain ⟨it', g1, g2⟩ := p1.getLast h1
    obtain ⟨u, us, u', us', f1, f2, f3, f4⟩ := g2.shape d' e1 e2
    obtain ⟨rfl, rfl⟩ := List.cons.inj (h2.symm.trans f1)
    exact ⟨_, .delayed r1 g1 f2 f4 (f3.trans h4) r2⟩
  | op201 _ ih =>
    intro h is' hp
    simp only [regularL, Bool.and_eq_true] at h
    obtain ⟨_, hr⟩ := ih h.2 hp
    exact ⟨_, .op201 hr⟩
  | op202 _ ih =>
    intro h is' hp
    simp only [regularL, Bool.and_eq_true] at h
    obtain ⟨_, hr⟩ := ih h.2 hp
    exact ⟨_, .op202 hr⟩
  | op207 _ ih =>
    intro h is' hp
    simp only [regularL, Bool.and_eq_true] at h
    obtain ⟨_, hr⟩ := ih h.2 hp
    exact ⟨_, .op207 hr⟩
  | op208 _ ih =>
    intro h is' hp
    simp only [regularL, Bool.and_eq_true] at h
    obtain ⟨_, hr⟩ := ih h.2 hp
    exact ⟨_, .op208 hr⟩
  | op203end hy _ ih =>
    intro h is' hp
    simp only [regularL, Bool.and_eq_true] at h
    obtain ⟨_, hr⟩ := ih h.2 hp
    exact ⟨_, .op203end hy hr⟩
  | op204 hy _ ih =>
    intro h is' hp
    simp only [regularL, regular, Bool.and_eq_true] at h
    obtain ⟨_, hr⟩ := ih (by simp [regularL_append, h]) hp
    exact ⟨_, .op204 hy hr⟩
  | op204end hy hn _ ih =>
    intro h is' hp
    simp only [regularL, regular, Bool.and_eq_true] at h
    obtain ⟨_, hr⟩ := ih (by simp [regularL_append, h]) hp
    exact ⟨_, .op204end hy hn hr⟩
  | op205 hw _ ih =>
    intro h is' hp
    simp only [regularL, Bool.and_eq_true] at h
    obtain ⟨i', is', rfl, q1, q2⟩ := hp.cons_inv
    obtain ⟨_, hw'⟩ := q1.wire
    obtain ⟨_, hr⟩ := ih h.2 q2
    rw [← add_recoded (.cons q1 .nil), q1.eq] at hr
    rw [q1.eq]
    exact ⟨_, .op205 hw' hr⟩
  | op206 hw _ ih =>
    intro h is' hp
    simp only [regularL, Bool.and_eq_true] at h
    obtain ⟨i', is', rfl, q1, q2⟩ := hp.cons_inv
    obtain ⟨_, hw'⟩ := q1.wire
    obtain ⟨_, hr⟩ := ih h.2 q2
    rw [← add_recoded (.cons q1 .nil), q1.eq] at hr
    rw [q1.eq]
    exact ⟨_, .op206 hw' hr⟩
  | op235 _ ih =>
    intro h is' hp
    simp only [regularL, Bool.and_eq_true] at h
    obtain ⟨_, hr⟩ := ih h.2 hp
    exact ⟨_, .op235 hr⟩
  | op237end _ ih =>
    intro h is' hp
    simp only [regularL, Bool.and_eq_true] at h
    obtain ⟨_, hr⟩ := ih h.2 hp
    exact ⟨_, .op237end hr⟩
  | @bitmap x z y ts ms zb bb bs zs bi is d bits hd ha hz hb h2 _ ih1 ih2 =>
    intro h is' hp
    simp only [regularL, regular, Bool.and_eq_true] at h
    obtain ⟨p1, i3, rfl, hp, h3⟩ := hp.append_inv
    obtain ⟨i1, i2, rfl, q1, q2⟩ := hp.append_inv
    obtain ⟨_, hz'⟩ := zero_recode hz q1
    obtain ⟨_, r1⟩ := ih1 h.1.2 q2
    obtain ⟨_, r2⟩ := ih2 h.2 h3
    rw [← add_recoded q1] at r1
    refine ⟨_, .bitmap hd ha hz' r1 ?_ r2⟩
    rw [← h2]
    exact recoded_bits q2 (coded_marks hb h.1.1)
  | recall hd hz _ ih =>
    intro h is' hp
    simp only [regularL, Bool.and_eq_true] at h
    obtain ⟨i1, i2, rfl, q1, q2⟩ := hp.append_inv
    obtain ⟨_, hz'⟩ := zero_recode hz q1
    obtain ⟨_, hr⟩ := ih h.2 q2
    rw [← add_recoded q1] at hr
    exact ⟨_, .recall hd hz' hr⟩
  | assessment h1 hz _ _ h2 h3 h4 h5 _ h6 _ ih1 ih2 ih3 ih4 =>
    intro h is' hp
    simp only [regularL, regular, Bool.and_eq_true] at h
    obtain ⟨p1, i5, rfl, hp, q5⟩ := hp.append_inv
    obtain ⟨p2, i4, rfl, hp, q4⟩ := hp.append_inv
    obtain ⟨p3, i3, rfl, hp, q3⟩ := hp.append_inv
    obtain ⟨i1, i2, rfl, q1, q2⟩ := hp.append_inv
    obtain ⟨_, hz'⟩ := zero_recode hz q1
    obtain ⟨_, r1⟩ := ih1 (by simp [regularL, h]) q2
    obtain ⟨_, r2⟩ := ih2 h.1.1.2 q3
    obtain ⟨_, r3⟩ := ih3 h.1.2 q4
    obtain ⟨_, r4⟩ := ih4 h.2 q5
    rw [← add_recoded q1] at r1
    exact ⟨_, .assessment h1 hz' r1 r2 h2 h3 h4 h5 r3 (by rw [q4.length]; exact h6) r4⟩
  | marker h1 h2 h3 h4 hw _ ih =>
    intro h is' hp
    simp only [regularL, Bool.and_eq_true] at h
    obtain ⟨i', is', rfl, q1, q2⟩ := hp.cons_inv
    obtain ⟨_, hw'⟩ := q1.wire
    obtain ⟨_, hr⟩ := ih h.2 q2
    rw [← add_recoded (.cons q1 .nil), q1.eq] at hr
    rw [q1.eq]
    exact ⟨_, .marker h1 h2 h3 h4 hw' hr⟩

end EncodeSpec
end Gobufr
