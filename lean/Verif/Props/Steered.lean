import Verif.Spec.Steered
import Verif.Props.Fixed
import Verif.Proofs.OnlyCompressed

/-!
# C124: the elements of a subset are determined by its replication factors and bitmaps
-/

namespace Gobufr
open Spec UnpackSpec EncodeSpec

variable {F : Type}

/-- The (first) values of the items of class 31. -/
def ctl (is : List (Datum F)) : List (Option (Val F)) := (is.filter fun i => steers i.desc).map fun i => i.vals.head?

theorem ctl_append (a b : List (Datum F)) : ctl (a ++ b) = ctl a ++ ctl b := by
  unfold ctl
  rw [List.filter_append, List.map_append]

theorem ctl_length : ∀ {a b : List (Datum F)}, a.map Datum.place = b.map Datum.place → (ctl a).length = (ctl b).length
  | [], [], _ => rfl
  | [], _ :: _, h => by cases h
  | _ :: _, [], h => by cases h
  | x :: a, y :: b, h => by
    rw [List.map_cons, List.map_cons] at h
    obtain ⟨h1, h2⟩ := List.cons.inj h
    have hd : x.desc = y.desc := congrArg Prod.fst h1
    have := ctl_length h2
    unfold ctl at this ⊢
    rw [List.filter_cons, List.filter_cons, hd]
    split
    · rw [List.map_cons, List.map_cons, List.length_cons, List.length_cons, this]
    · exact this

theorem ctl_split {a b : List (Datum F)} {r r' : List (Option (Val F))} (h : a.map Datum.place = b.map Datum.place)
    (e : ctl a ++ r = ctl b ++ r') : ctl a = ctl b ∧ r = r' := List.append_inj e (ctl_length h)

theorem steered_tail {n : Ast} {ns : List Ast} (h : Steered (n :: ns)) : Steered ns := fun m hm => h m (List.mem_append_right _ hm)

theorem steered_head {n : Ast} {ns : List Ast} (h : Steered (n :: ns)) : steered n = true :=
  h n (List.mem_append_left _ (self_mem_nodes n))

theorem steered_append {a b : List Ast} (ha : Steered a) (hb : Steered b) : Steered (a ++ b) := by
  intro n hn
  rw [nodesL_append] at hn
  rcases List.mem_append.1 hn with hn | hn
  · exact ha n hn
  · exact hb n hn

theorem steered_replicate {a : List Ast} (ha : Steered a) : ∀ k, Steered (List.replicate k a).flatten
  | 0 => by intro n hn; cases hn
  | k + 1 => by
    rw [List.replicate_succ, List.flatten_cons]
    exact steered_append ha (steered_replicate ha k)

theorem steered_below {n : Ast} {ns ms : List Ast} (h : Steered (n :: ns)) (hm : ∀ x ∈ ParserSpec.nodesL ms, x ∈ ParserSpec.nodes n) :
    Steered ms := fun m hm' => h m (List.mem_append_left _ (hm m hm'))

theorem zero_places [GoFloat F] {τ τ' : Type} {W : Wire F τ} {W' : Wire F τ'} {compatible : Bool} {d : Desc} {b : List τ} {b' : List τ'}
    {is is' : List (Datum F)} (h : Zero W compatible d b is) (h' : Zero W' compatible d b' is') :
    is.map Datum.place = is'.map Datum.place := by
  cases h with
  | off h => cases h' with
    | off => rfl
    | on h' => rw [h] at h'; cases h'
  | on h => cases h' with
    | off h' => rw [h] at h'; cases h'
    | on => rfl

/-- The factor is of class 31. -/
theorem factor_ctl [GoFloat F] {τ : Type} {W : Wire F τ} {compatible : Bool} {x y : Ctx} {d : Desc} {np : Bool} {b : List τ}
    {is : List (Datum F)} {it : Datum F} (h : Coded W compatible x [.element d np] b is y) (hd : d.id.X = 31)
    (hl : is.getLast? = some it) : ctl is = [it.vals.head?] := by
  cases h with
  | absent h => cases h; cases hl
  | element he ha hw h =>
    cases h
    rw [if_pos hd] at ha
    cases ha
    simp only [List.nil_append, List.append_nil, List.getLast?_singleton, Option.some.injEq] at hl
    subst hl
    simp [ctl, steers, hd]

/-- All items of a bitmap are of class 31. -/
theorem indicates_ctl [GoFloat F] {τ : Type} {W : Wire F τ} {compatible : Bool} {x y : Ctx} {ts : List Ast} {b : List τ}
    {is : List (Datum F)} (h : Coded W compatible x ts b is y) : (∀ n ∈ ParserSpec.nodesL ts, indicates n = true) →
    ∀ i ∈ is, steers i.desc = true := by
  have hrep : ∀ {a : List Ast} (k : Nat), (∀ n ∈ ParserSpec.nodesL a, indicates n = true) →
      ∀ n ∈ ParserSpec.nodesL (List.replicate k a).flatten, indicates n = true := by
    intro a k ha
    induction k with
    | zero => intro n hn; cases hn
    | succ k ih =>
      rw [List.replicate_succ, List.flatten_cons, nodesL_append]
      intro n hn
      rcases List.mem_append.1 hn with hn | hn
      · exact ha n hn
      · exact ih n hn
  have happ : ∀ {a b : List Ast}, (∀ n ∈ ParserSpec.nodesL a, indicates n = true) → (∀ n ∈ ParserSpec.nodesL b, indicates n = true) →
      ∀ n ∈ ParserSpec.nodesL (a ++ b), indicates n = true := by
    intro a b ha hb n hn
    rw [nodesL_append] at hn
    rcases List.mem_append.1 hn with hn | hn
    · exact ha n hn
    · exact hb n hn
  have htail : ∀ {n : Ast} {ns : List Ast}, (∀ m ∈ ParserSpec.nodesL (n :: ns), indicates m = true) →
      ∀ m ∈ ParserSpec.nodesL ns, indicates m = true := fun h m hm => h m (List.mem_append_right _ hm)
  have hbelow : ∀ {n : Ast} {ns ms : List Ast}, (∀ m ∈ ParserSpec.nodesL (n :: ns), indicates m = true) →
      (∀ x ∈ ParserSpec.nodesL ms, x ∈ ParserSpec.nodes n) → ∀ m ∈ ParserSpec.nodesL ms, indicates m = true :=
    fun h hm m hm' => h m (List.mem_append_left _ (hm m hm'))
  have hhead : ∀ {n : Ast} {ns : List Ast}, (∀ m ∈ ParserSpec.nodesL (n :: ns), indicates m = true) → indicates n = true :=
    fun h => h _ (List.mem_append_left _ (self_mem_nodes _))
  induction h with
  | nil => intro _ i hi; cases hi
  | @element x _ _ _ _ d e _ _ as _ he ha hw _ ih =>
    intro ht i hi
    have hd : d.id.X = 31 := by simpa [indicates] using hhead ht
    rw [if_pos hd] at ha
    cases ha
    simp only [List.nil_append, List.singleton_append, List.mem_cons] at hi
    rcases hi with rfl | hi
    · simp [steers, hd]
    · exact ih (htail ht) i hi
  | absent _ ih => intro ht; exact ih (htail ht)
  | sequence _ ih => intro ht; exact ih (happ (hbelow ht fun x hx => List.mem_cons_of_mem _ hx) (htail ht))
  | fixed _ ih => intro ht; exact ih (happ (hrep _ (hbelow ht fun x hx => List.mem_cons_of_mem _ hx)) (htail ht))
  | @delayed _ _ _ _ ms m _ _ _ _ _ _ _ _ _ _ _ _ _ _ _ ih1 ih2 =>
    intro ht i hi
    have hb : ∀ n ∈ ParserSpec.nodesL (m :: ms), indicates n = true := hbelow ht fun x hx => List.mem_cons_of_mem _ hx
    rcases List.mem_append.1 hi with hi | hi
    · refine ih1 (fun n hn => hb n ?_) i hi
      have : ParserSpec.nodesL [m] = ParserSpec.nodes m ++ [] := rfl
      rw [this, List.append_nil] at hn
      exact List.mem_append_left _ hn
    · exact ih2 (happ (hrep _ (htail hb)) (htail ht)) i hi
  | significance | op201 | op202 | op207 | op208 | op203end | op204 | op204end | op205 | op206 | op235 | op237end | bitmap | recall
    | assessment | marker | notPresent => intro ht; cases hhead ht

theorem ctl_all {is : List (Datum F)} (h : ∀ i ∈ is, steers i.desc = true) : ctl is = is.map fun i => i.vals.head? := by
  unfold ctl
  rw [List.filter_eq_self.2 h]

/-- Data for the same template with the same values of class 31 have the same elements and packings, however they are written. -/
theorem coded_steered [GoFloat F] {τ τ' : Type} {W : Wire F τ} {W' : Wire F τ'} {compatible : Bool} {x y : Ctx} {ts : List Ast}
    {b : List τ} {is : List (Datum F)} (h : Coded W compatible x ts b is y) (ht : Steered ts) :
    ∀ {b' : List τ'} {is' : List (Datum F)} {y' : Ctx}, Coded W' compatible x ts b' is' y' → ∀ {r r' : List (Option (Val F))},
      ctl is ++ r = ctl is' ++ r' → is.map Datum.place = is'.map Datum.place ∧ y = y' ∧ r = r' := by
  have one : ∀ {i i' : Datum F} {is is' : List (Datum F)} {r r' : List (Option (Val F))}, ctl (i :: is) ++ r = ctl (i' :: is') ++ r' →
      Datum.place i = Datum.place i' → ctl is ++ r = ctl is' ++ r' := by
    intro i i' is is' r r' e hp
    have e1 : ∀ (i : Datum F) is, ctl (i :: is) = ctl [i] ++ ctl is := fun i is => ctl_append [i] is
    rw [e1, e1 i', List.append_assoc, List.append_assoc] at e
    exact (ctl_split (by rw [List.map_singleton, List.map_singleton, hp]) e).2
  induction h with
  | nil => intro b' is' y' h' r r' e; cases h'; exact ⟨rfl, rfl, e⟩
  | @element x _ _ _ _ d e _ _ as vs he ha hw _ ih =>
    intro b' is' y' h' r r' ec
    cases h' with
    | @element _ _ _ _ _ _ e' _ _ as' vs' he' ha' hw' h' =>
      cases he.symm.trans he'
      have hp := (assocs_places ha).trans (assocs_places ha').symm
      have hq : (as ++ [⟨⟨some d, false⟩, x.ops.packing e, vs⟩] : List (Datum F)).map Datum.place =
          (as' ++ [⟨⟨some d, false⟩, x.ops.packing e, vs'⟩] : List (Datum F)).map Datum.place := by
        rw [List.map_append, List.map_append, hp]; rfl
      rw [ctl_append (as ++ [_]), ctl_append (as' ++ [_]), List.append_assoc (ctl (as ++ [_])), List.append_assoc (ctl (as' ++ [_]))] at ec
      obtain ⟨k1, k2, k3⟩ := ih (steered_tail ht) (by rw [add_places x hq]; exact h') (ctl_split hq ec).2
      refine ⟨?_, k2, k3⟩
      rw [List.map_append (l₁ := as ++ [_]), List.map_append (l₁ := as' ++ [_]), hq, k1]
  | significance he hw _ ih =>
    intro b' is' y' h' r r' ec
    cases h' with
    | significance he' hw' h' =>
      cases he.symm.trans he'
      obtain ⟨k1, k2⟩ := ih (steered_tail ht) h' (one ec rfl)
      exact ⟨by rw [List.map_cons, List.map_cons, k1]; rfl, k2⟩
  | op205 hw _ ih =>
    intro b' is' y' h' r r' ec
    cases h' with
    | op205 hw' h' =>
      obtain ⟨k1, k2⟩ := ih (steered_tail ht) h' (one ec rfl)
      exact ⟨by rw [List.map_cons, List.map_cons, k1]; rfl, k2⟩
  | op206 hw _ ih =>
    intro b' is' y' h' r r' ec
    cases h' with
    | op206 hw' h' =>
      obtain ⟨k1, k2⟩ := ih (steered_tail ht) h' (one ec rfl)
      exact ⟨by rw [List.map_cons, List.map_cons, k1]; rfl, k2⟩
  | marker h1 h2 h3 h4 hw _ ih =>
    intro b' is' y' h' r r' ec
    cases h' with
    | marker h1' h2' h3' h4' hw' h' =>
      cases h1.symm.trans h1'
      cases h2.symm.trans h2'
      cases h4.symm.trans h4'
      obtain ⟨k1, k2⟩ := ih (steered_tail ht) h' (one ec rfl)
      exact ⟨by rw [List.map_cons, List.map_cons, k1]; rfl, k2⟩
  | @delayed x z y ts ms m fb bs fs is d v vs k it hm hl hv ha hk _ ih1 ih2 =>
    intro b' is' y' h' r r' ec
    cases h' with
    | @delayed _ z' _ _ _ _ fb' bs' fs' is' _ v' vs' k' it' hm' hl' hv' ha' hk' h' =>
      have hst := steered_head ht
      have hbel : Steered (m :: ms) := steered_below ht fun x hx => List.mem_cons_of_mem _ hx
      have hone : Steered [m] := fun n hn => hbel n (by
        have : ParserSpec.nodesL [m] = ParserSpec.nodes m ++ [] := rfl
        rw [this, List.append_nil] at hn
        exact List.mem_append_left _ hn)
      rw [ctl_append, ctl_append, List.append_assoc, List.append_assoc] at ec
      obtain ⟨p1, rfl, p3⟩ := ih1 hone hm' ec
      obtain ⟨dm, np, rfl, hX⟩ : ∃ dm np, m = .element dm np ∧ dm.id.X = 31 := by
        cases m with
        | element dm np => exact ⟨dm, np, rfl, by simpa [steered] using hst⟩
        | _ => cases hst
      have hc := (ctl_split p1 ec).1
      rw [factor_ctl hm hX hl, factor_ctl hm' hX hl', hv, hv'] at hc
      obtain rfl : v = v' := by simpa using hc
      obtain rfl : k = k' := Option.some.inj (hk.symm.trans hk')
      obtain ⟨k1, k2, k3⟩ := ih2 (steered_append (steered_replicate (steered_tail hbel) _) (steered_tail ht)) h' p3
      exact ⟨by rw [List.map_append, List.map_append, p1, k1], k2, k3⟩
  | @bitmap x z y ts ms zb bb bs zs bi is d bits hd hap hz hm hb _ ih1 ih2 =>
    intro b' is' y' h' r r' ec
    cases h' with
    | @bitmap _ z' _ _ _ zb' bb' bs' zs' bi' is' _ bits' _ _ hz' hm' hb' h' =>
      have hst := steered_head ht
      have hbel : Steered ms := steered_below ht fun x hx => List.mem_cons_of_mem _ hx
      have pz := zero_places hz hz'
      simp only [ctl_append, List.append_assoc] at ec
      rw [add_places x pz] at hm ih1
      obtain ⟨p1, rfl, p3⟩ := ih1 hbel hm' (ctl_split pz ec).2
      have hall : ∀ n ∈ ParserSpec.nodesL ms, indicates n = true := List.all_eq_true.1 hst
      have hc := (ctl_split p1 (ctl_split pz ec).2).1
      rw [ctl_all (indicates_ctl hm hall), ctl_all (indicates_ctl hm' hall)] at hc
      have hbits : bits.map some = bits'.map some := by
        rw [← hb, ← hb']
        have := congrArg (List.map fun o : Option (Val F) => o.bind Flat.numberOf) hc
        simpa [List.map_map, Function.comp_def] using this
      obtain rfl : bits = bits' := List.map_injective_iff.2 (Option.some_injective _) hbits
      obtain ⟨k1, k2, k3⟩ := ih2 (steered_tail ht) h' p3
      exact ⟨by simp only [List.map_append, pz, p1, k1], k2, k3⟩
    | recall hd' => exact absurd hd' hd
  | @recall x y ts ms zb bs zs is d hd hz _ ih =>
    intro b' is' y' h' r r' ec
    cases h' with
    | bitmap hd' => exact absurd hd hd'
    | recall _ hz' h' =>
      have pz := zero_places hz hz'
      rw [ctl_append, ctl_append, List.append_assoc, List.append_assoc] at ec
      rw [add_places x pz] at ih
      obtain ⟨k1, k2, k3⟩ := ih (steered_tail ht) h' (ctl_split pz ec).2
      exact ⟨by rw [List.map_append, List.map_append, pz, k1], k2, k3⟩
  | @assessment x x1 x2 x3 y ts as ms bm zb b1 b2 b3 bs zs i1 i2 i3 is d n bits hback hz h1 h2 hcur hbk hne hle h3 hlen _ ih1 ih2 ih3 ih4 =>
    intro b' is' y' h' r r' ec
    cases h' with
    | @assessment _ x1' x2' x3' _ _ _ _ _ zb' b1' b2' b3' bs' zs' i1' i2' i3' is' _ n' bits' hback' hz' h1' h2' hcur' hbk' hne' hle' h3'
        hlen' h' =>
      have hin : ∀ n, n ∈ ParserSpec.nodes bm ∨ n ∈ ParserSpec.nodesL as ∨ n ∈ ParserSpec.nodesL ms →
          n ∈ ParserSpec.nodes (.assessment d bm as ms) := by
        intro n hn
        refine List.mem_cons_of_mem _ ?_
        rcases hn with hn | hn | hn
        · exact List.mem_append_left _ (List.mem_append_left _ hn)
        · exact List.mem_append_left _ (List.mem_append_right _ hn)
        · exact List.mem_append_right _ hn
      have s1 : Steered [bm] := steered_below ht fun n hn => by
        have : ParserSpec.nodesL [bm] = ParserSpec.nodes bm ++ [] := rfl
        rw [this, List.append_nil] at hn
        exact hin n (.inl hn)
      have s2 : Steered as := steered_below ht fun n hn => hin n (.inr (.inl hn))
      have s3 : Steered ms := steered_below ht fun n hn => hin n (.inr (.inr hn))
      have pz := zero_places hz hz'
      simp only [ctl_append, List.append_assoc] at ec
      rw [add_places _ pz] at ih1
      obtain ⟨p1, rfl, e1⟩ := ih1 s1 h1' (ctl_split pz ec).2
      obtain ⟨p2, rfl, e2⟩ := ih2 s2 h2' e1
      obtain rfl : bits = bits' := Option.some.inj (hcur.symm.trans hcur')
      obtain rfl : n = n' := Option.some.inj (hbk.symm.trans hbk')
      obtain ⟨p3, rfl, e3⟩ := ih3 s3 h3' e2
      obtain ⟨p4, rfl, e4⟩ := ih4 (steered_tail ht) h' e3
      exact ⟨by simp only [List.map_append, pz, p1, p2, p3, p4], rfl, e4⟩
  | absent _ ih => intro b' is' y' h' r r' ec; cases h' with | absent h' => exact ih (steered_tail ht) h' ec
  | sequence _ ih =>
    intro b' is' y' h' r r' ec
    cases h' with
    | sequence h' => exact ih (steered_append (steered_below ht fun x hx => List.mem_cons_of_mem _ hx) (steered_tail ht)) h' ec
  | notPresent _ ih =>
    intro b' is' y' h' r r' ec
    cases h' with
    | notPresent h' => exact ih (steered_append (steered_below ht fun x hx => List.mem_cons_of_mem _ hx) (steered_tail ht)) h' ec
  | fixed _ ih =>
    intro b' is' y' h' r r' ec
    cases h' with
    | fixed h' =>
      exact ih (steered_append (steered_replicate (steered_below ht fun x hx => List.mem_cons_of_mem _ hx) _) (steered_tail ht)) h' ec
  | op201 _ ih => intro b' is' y' h' r r' ec; cases h' with | op201 h' => exact ih (steered_tail ht) h' ec
  | op202 _ ih => intro b' is' y' h' r r' ec; cases h' with | op202 h' => exact ih (steered_tail ht) h' ec
  | op207 _ ih => intro b' is' y' h' r r' ec; cases h' with | op207 h' => exact ih (steered_tail ht) h' ec
  | op208 _ ih => intro b' is' y' h' r r' ec; cases h' with | op208 h' => exact ih (steered_tail ht) h' ec
  | op203end _ _ ih => intro b' is' y' h' r r' ec; cases h' with | op203end _ h' => exact ih (steered_tail ht) h' ec
  | op204 h0 _ ih =>
    intro b' is' y' h' r r' ec
    cases h' with
    | op204 _ h' => exact ih (steered_append (steered_below ht fun x hx => List.mem_cons_of_mem _ hx) (steered_tail ht)) h' ec
    | op204end h0' => exact absurd h0' h0
  | op204end h0 _ _ ih =>
    intro b' is' y' h' r r' ec
    cases h' with
    | op204 h0' => exact absurd h0 h0'
    | op204end _ _ h' => exact ih (steered_append (steered_below ht fun x hx => List.mem_cons_of_mem _ hx) (steered_tail ht)) h' ec
  | op235 _ ih => intro b' is' y' h' r r' ec; cases h' with | op235 h' => exact ih (steered_tail ht) h' ec
  | op237end _ ih => intro b' is' y' h' r r' ec; cases h' with | op237end h' => exact ih (steered_tail ht) h' ec

/-! ## Messages -/

theorem steering_ctl {is : List (Datum F)} (h : ∀ i ∈ is, i.vals ≠ []) : ctl is = (steering (written is 0)).map some := by
  induction is with
  | nil => rfl
  | cons i is ih =>
    have ih := ih fun j hj => h j (List.mem_cons_of_mem _ hj)
    have hi := h i List.mem_cons_self
    have e : steering (written (i :: is) 0) = (if steers i.desc then [i.vals.getD 0 .nil] else []) ++ steering (written is 0) := by
      simp only [steering, written, List.map_cons, List.filterMap_cons, Option.bind_some]
      by_cases hs : steers i.desc = true <;> simp [hs]
    have e' : ctl (i :: is) = (if steers i.desc then [i.vals.head?] else []) ++ ctl is := by
      unfold ctl
      rw [List.filter_cons]
      split <;> rfl
    rw [e, e', ih, List.map_append]
    congr 1
    split
    · cases hv : i.vals with
      | nil => exact absurd hv hi
      | cons v vs => rfl
    · rfl

theorem places_written (is : List (Datum F)) (j : Nat) : places (written is j) = (is.map Datum.place).map some := by
  simp [places, written, Datum.place, Function.comp_def]

/-- What a subset of a message reports is what the rules say. -/
def Told [GoFloat F] (compatible : Bool) (ns : List Ast) (l : List (Option (NodeDesc × PackingInfo F × Val F))) : Prop :=
  ∃ (W : Wire F Bool) (b : List Bool) (is : List (Datum F)) (y : Ctx), Coded W compatible {} ns b is y ∧ (∀ i ∈ is, i.vals ≠ []) ∧
    l = written is 0

theorem Told.places [GoFloat F] {compatible : Bool} {ns : List Ast} (hst : Steered ns)
    {l l' : List (Option (NodeDesc × PackingInfo F × Val F))} (h : Told compatible ns l) (h' : Told compatible ns l')
    (e : steering l = steering l') : places l = places l' := by
  obtain ⟨W, b, is, y, hc, hv, rfl⟩ := h
  obtain ⟨W', b', is', y', hc', hv', rfl⟩ := h'
  have := (coded_steered hc hst hc' (r := []) (r' := []) (by rw [steering_ctl hv, steering_ctl hv', e])).1
  rw [places_written, places_written, this]

theorem told_uncompressed [GoFloat F] [LawfulGoFloat F] {ns : List Ast} (hsim : simpleL true ns = true) (c : FacCfg)
    (hc : c.inputType = .binary) (s s' : Fac F) (m : Message F) (input : List UInt8) (q : Int)
    (hs : s.r = .bin ⟨BitReader.bitsOfBytes input, 8 * q⟩) (h : Runtime.run c s = (.ok m, s'))
    (hcomp : fieldValue m 3 "isCompressed" = some (.bool false)) (hloc : LocalFits m) (hns : Means c m ns) (p : Payload F)
    (hp : payloadOf m = some p)
    (hw : ∀ sub ∈ p.subsets, ∀ d info v, some (d, info, v) ∈ reported sub → EncodeSpec.Proper info v) :
    ∀ sub ∈ p.subsets, Told c.compatible ns (reported sub) := by
  obtain ⟨d, junk, bs, rest, p1, xs, -, -, -, -, k5, k6, k7, -⟩ := C100_uncompressed_partial c hc s s' m input q hs h hcomp hloc hns
    hsim fun p1 hp1 => by
      rw [hp] at hp1
      cases hp1
      exact hw
  rw [hp] at k6
  cases k6
  intro sub hsub
  have hmem := List.mem_map_of_mem (f := reported) hsub
  rw [k7] at hmem
  obtain ⟨x, hx, e⟩ := List.mem_map.1 hmem
  obtain ⟨y, hy⟩ := k5.coded x hx
  refine ⟨_, _, _, y, hy, fun i hi => ?_, e.symm⟩
  obtain ⟨b, hb⟩ := hy.each i hi
  rw [single_alone hb]
  simp

theorem told_compressed [GoFloat F] [LawfulGoFloat F] {ns : List Ast} (hsim : simpleL true ns = true) (c : FacCfg)
    (hc : c.inputType = .binary) (s s' : Fac F) (m : Message F) (input : List UInt8) (q : Int)
    (hs : s.r = .bin ⟨BitReader.bitsOfBytes input, 8 * q⟩) (h : Runtime.run c s = (.ok m, s'))
    (hcomp : fieldValue m 3 "isCompressed" = some (.bool true)) (hsub : fieldValue m 3 "nSubsets" ≠ some (.uint 0)) (hloc : LocalFits m)
    (hns : Means c m ns) (p : Payload F) (hp : payloadOf m = some p)
    (hw : ∀ sub ∈ p.subsets, ∀ d info v, some (d, info, v) ∈ reported sub → ProperColumn info) :
    ∃ l, p.subsets.head?.map reported = some l ∧ Told c.compatible ns l ∧ ∀ sub ∈ p.subsets, places (reported sub) = places l := by
  obtain ⟨_, _, _, _, p1, k, is, -, -, -, -, hk, k5, k6, k7, -⟩ := C100_compressed_partial c hc s s' m input q hs h hcomp hsub hloc hns hsim
    fun p1 hp1 => by
      rw [hp] at hp1
      cases hp1
      exact hw
  rw [hp] at k6
  cases k6
  obtain ⟨y, hy⟩ := k5.coded
  refine ⟨written is 0, ?_, ⟨_, _, is, y, hy, fun i hi => ?_, rfl⟩, fun sub hsub => ?_⟩
  · rw [← List.head?_map, k7, List.head?_map]
    cases k with
    | zero => omega
    | succ k => rw [List.range_succ_eq_map]; rfl
  · obtain ⟨b, hb⟩ := hy.each i hi
    have := Lenient.length hb
    intro hn
    rw [hn] at this
    simp at this
    omega
  · have hmem := List.mem_map_of_mem (f := reported) hsub
    rw [k7] at hmem
    obtain ⟨j, -, e⟩ := List.mem_map.1 hmem
    rw [← e, places_written, places_written]

/-- **C124**: subsets of messages with the same template that have the same replication factors, data present indicators and other values
of class 31 report the same elements with the same packings. -/
theorem C124_subsets [GoFloat F] [LawfulGoFloat F] (ns : List Ast) (hst : Steered ns) (hsim : simpleL true ns = true)
    (c c' : FacCfg) (hc : c.inputType = .binary) (hc' : c'.inputType = .binary) (hcc : c.compatible = c'.compatible)
    (s s1 s' s1' : Fac F) (m m' : Message F) (input input' : List UInt8) (q q' : Int)
    (hs : s.r = .bin ⟨BitReader.bitsOfBytes input, 8 * q⟩) (hs' : s'.r = .bin ⟨BitReader.bitsOfBytes input', 8 * q'⟩)
    (h : Runtime.run c s = (.ok m, s1)) (h' : Runtime.run c' s' = (.ok m', s1'))
    (hcomp : fieldValue m 3 "isCompressed" = some (.bool false)) (hcomp' : fieldValue m' 3 "isCompressed" = some (.bool false))
    (hloc : LocalFits m) (hloc' : LocalFits m') (hns : Means c m ns) (hns' : Means c' m' ns) (p p' : Payload F)
    (hp : payloadOf m = some p) (hp' : payloadOf m' = some p')
    (hw : ∀ sub ∈ p.subsets, ∀ d info v, some (d, info, v) ∈ reported sub → EncodeSpec.Proper info v)
    (hw' : ∀ sub ∈ p'.subsets, ∀ d info v, some (d, info, v) ∈ reported sub → EncodeSpec.Proper info v)
    (sub sub' : Subset F) (hsub : sub ∈ p.subsets) (hsub' : sub' ∈ p'.subsets)
    (e : steering (reported sub) = steering (reported sub')) : places (reported sub) = places (reported sub') :=
  Told.places hst (told_uncompressed hsim c hc s s1 m input q hs h hcomp hloc hns p hp hw sub hsub)
    (hcc ▸ told_uncompressed hsim c' hc' s' s1' m' input' q' hs' h' hcomp' hloc' hns' p' hp' hw' sub' hsub') e

/-- **C124**, compressed data: all subsets report the same elements with the same packings, and these are determined by the values of class
31 of the first. -/
theorem C124_compressed [GoFloat F] [LawfulGoFloat F] (ns : List Ast) (hst : Steered ns) (hsim : simpleL true ns = true)
    (c c' : FacCfg) (hc : c.inputType = .binary) (hc' : c'.inputType = .binary) (hcc : c.compatible = c'.compatible)
    (s s1 s' s1' : Fac F) (m m' : Message F) (input input' : List UInt8) (q q' : Int)
    (hs : s.r = .bin ⟨BitReader.bitsOfBytes input, 8 * q⟩) (hs' : s'.r = .bin ⟨BitReader.bitsOfBytes input', 8 * q'⟩)
    (h : Runtime.run c s = (.ok m, s1)) (h' : Runtime.run c' s' = (.ok m', s1'))
    (hcomp : fieldValue m 3 "isCompressed" = some (.bool true)) (hcomp' : fieldValue m' 3 "isCompressed" = some (.bool true))
    (hn : fieldValue m 3 "nSubsets" ≠ some (.uint 0)) (hn' : fieldValue m' 3 "nSubsets" ≠ some (.uint 0))
    (hloc : LocalFits m) (hloc' : LocalFits m') (hns : Means c m ns) (hns' : Means c' m' ns) (p p' : Payload F)
    (hp : payloadOf m = some p) (hp' : payloadOf m' = some p')
    (hw : ∀ sub ∈ p.subsets, ∀ d info v, some (d, info, v) ∈ reported sub → ProperColumn info)
    (hw' : ∀ sub ∈ p'.subsets, ∀ d info v, some (d, info, v) ∈ reported sub → ProperColumn info)
    (e : p.subsets.head?.map (fun s => steering (reported s)) = p'.subsets.head?.map fun s => steering (reported s)) :
    ∀ sub ∈ p.subsets, ∀ sub' ∈ p'.subsets, places (reported sub) = places (reported sub') := by
  obtain ⟨l, h1, h2, h3⟩ := told_compressed hsim c hc s s1 m input q hs h hcomp hn hloc hns p hp hw
  obtain ⟨l', h1', h2', h3'⟩ := told_compressed hsim c' hc' s' s1' m' input' q' hs' h' hcomp' hn' hloc' hns' p' hp' hw'
  intro sub hsub sub' hsub'
  rw [h3 sub hsub, h3' sub' hsub']
  refine Told.places hst h2 (hcc ▸ h2') ?_
  have k : ∀ o : Option (Subset F), o.map (fun s => steering (reported s)) = (o.map reported).map steering := fun o => by
    cases o <;> rfl
  rw [k, k, h1, h1'] at e
  exact Option.some.inj e

/-- **C124**, one message compressed and the other not. -/
theorem C124_mixed [GoFloat F] [LawfulGoFloat F] (ns : List Ast) (hst : Steered ns) (hsim : simpleL true ns = true)
    (c c' : FacCfg) (hc : c.inputType = .binary) (hc' : c'.inputType = .binary) (hcc : c.compatible = c'.compatible)
    (s s1 s' s1' : Fac F) (m m' : Message F) (input input' : List UInt8) (q q' : Int)
    (hs : s.r = .bin ⟨BitReader.bitsOfBytes input, 8 * q⟩) (hs' : s'.r = .bin ⟨BitReader.bitsOfBytes input', 8 * q'⟩)
    (h : Runtime.run c s = (.ok m, s1)) (h' : Runtime.run c' s' = (.ok m', s1'))
    (hcomp : fieldValue m 3 "isCompressed" = some (.bool false)) (hcomp' : fieldValue m' 3 "isCompressed" = some (.bool true))
    (hn' : fieldValue m' 3 "nSubsets" ≠ some (.uint 0))
    (hloc : LocalFits m) (hloc' : LocalFits m') (hns : Means c m ns) (hns' : Means c' m' ns) (p p' : Payload F)
    (hp : payloadOf m = some p) (hp' : payloadOf m' = some p')
    (hw : ∀ sub ∈ p.subsets, ∀ d info v, some (d, info, v) ∈ reported sub → EncodeSpec.Proper info v)
    (hw' : ∀ sub ∈ p'.subsets, ∀ d info v, some (d, info, v) ∈ reported sub → ProperColumn info)
    (sub : Subset F) (hsub : sub ∈ p.subsets)
    (e : p'.subsets.head?.map (fun s => steering (reported s)) = some (steering (reported sub))) :
    ∀ sub' ∈ p'.subsets, places (reported sub) = places (reported sub') := by
  obtain ⟨l', h1', h2', h3'⟩ := told_compressed hsim c' hc' s' s1' m' input' q' hs' h' hcomp' hn' hloc' hns' p' hp' hw'
  intro sub' hsub'
  rw [h3' sub' hsub']
  refine Told.places hst (told_uncompressed hsim c hc s s1 m input q hs h hcomp hloc hns p hp hw sub hsub) (hcc ▸ h2') ?_
  have k : ∀ o : Option (Subset F), o.map (fun s => steering (reported s)) = (o.map reported).map steering := fun o => by
    cases o <;> rfl
  rw [k, h1'] at e
  exact (Option.some.inj e).symm

namespace SteeredExample
open MessageExample AcceptExample

/-- The tables with 031001, a replication factor of 8 bits. -/
def tables5 : Tables where
  getB n := if n = ⟨0, 0, 0, 13⟩ then .ok ⟨[], [(31001, AcceptExample.temperature), (12001, AcceptExample.temperature)]⟩ else .err .notExist
  getD n := if n = ⟨0, 0, 0, 13⟩ then .ok ⟨[], []⟩ else .err .notExist

def cfg5 : FacCfg := ⟨tables5, .binary, false, false, 100⟩

/-- 101000 031001 012001: temperatures, as many as a factor says. -/
def tree5 : List Ast := [.delayedRepl ⟨101000, .r (str "101000")⟩
  [.element ⟨31001, .b AcceptExample.temperature⟩ false, .element ⟨12001, .b AcceptExample.temperature⟩ false]]

/-- Edition 4, three subsets of two, one and two temperatures. -/
def draft5 : Draft where
  edition := 4
  head := numbers [(0, "startSignature", 0x42554652), (0, "totalLengthInBytes", 59), (0, "bufrEditionNumber", 4),
    (1, "lengthInBytes", 22), (1, "originatingCentre", 1), (1, "masterTableVersion", 13),
    (1, "year", 2020), (1, "month", 1), (1, "day", 1), (3, "lengthInBytes", 13), (3, "nSubsets", 3),
    (3, "isObservation", 1), (4, "lengthInBytes", 12), (5, "stopSignature", 0x37373737)]
  pad1 := []
  locals := none
  descriptors := [(1, 1, 0), (0, 31, 1), (0, 12, 1)]
  pad3 := []
  data := (natBits 8 2 ++ (natBits 8 0x12 ++ natBits 8 0x13)) ++ (natBits 8 1 ++ natBits 8 0x14) ++
    (natBits 8 2 ++ (natBits 8 0x15 ++ natBits 8 0x16))
  pad4 := []

def bytes5 : List UInt8 :=
  [0x42, 0x55, 0x46, 0x52, 0, 0, 59, 4] ++
  [0, 0, 22, 0, 0, 1, 0, 0, 0, 0, 0, 0, 0, 13, 0, 7, 0xE4, 1, 1, 0, 0, 0] ++
  [0, 0, 13, 0, 0, 3, 0x80, 0x41, 0, 0x1F, 1, 0x0C, 1] ++ [0, 0, 12, 0, 2, 0x12, 0x13, 1, 0x14, 2, 0x15, 0x16] ++ stop

theorem sound5 : draft5.Sound := sound_of _ (by decide) (by decide +kernel) (by decide +kernel) (by decide +kernel)
  (by decide) (by decide) (by decide) (by decide)

def group5 : ChainGroup := (addLocalAndWmoTableGroups tables5 0 1 0 13 0 ⟨[]⟩).2

theorem found5 : addLocalAndWmoTableGroups tables5 0 1 0 13 0 ⟨[]⟩ = (.ok (), group5) := by
  have k : (addLocalAndWmoTableGroups tables5 0 1 0 13 0 ⟨[]⟩).1 = .ok () := by decide +kernel
  exact eq_of_fst k

theorem parsed5 : parse group5.lookup cfg5.fuel [101000, 31001, 12001] = .ok (.base rootDescriptor tree5) := by rfl

def factor (n : Nat) : Datum ToyFloat := ⟨⟨some ⟨31001, .b AcceptExample.temperature⟩, false⟩, ⟨.numeric, 0, ⟨0⟩, 8⟩, [value ⟨.numeric, 0, ⟨0⟩, 8⟩ 8 n]⟩

def degrees (n : Nat) : Datum ToyFloat := ⟨⟨some ⟨12001, .b AcceptExample.temperature⟩, false⟩, ⟨.numeric, 0, ⟨0⟩, 8⟩, [value ⟨.numeric, 0, ⟨0⟩, 8⟩ 8 n]⟩

theorem coded_element (x : Ctx) (hx : x.ops = {}) (hx' : x.assoc = []) (id : ID) (n : Nat) (h : n < 2 ^ 8) (ts : List Ast) (b : List Bool)
    (is : List (Datum ToyFloat)) (y : Ctx)
    (ht : Coded Single false (x.add [(⟨⟨some ⟨id, .b AcceptExample.temperature⟩, false⟩, ⟨.numeric, 0, ⟨0⟩, 8⟩, [value ⟨.numeric, 0, ⟨0⟩, 8⟩ 8 n]⟩ : Datum ToyFloat)]) ts b is y) :
    Coded Single false x (.element ⟨id, .b AcceptExample.temperature⟩ false :: ts) (natBits 8 n ++ b)
      (⟨⟨some ⟨id, .b AcceptExample.temperature⟩, false⟩, ⟨.numeric, 0, ⟨0⟩, 8⟩, [value ⟨.numeric, 0, ⟨0⟩, 8⟩ 8 n]⟩ :: is) y := by
  obtain ⟨ops, assoc, seen, back, cur, reus, targets⟩ := x
  cases hx
  cases hx'
  have hs : Single (F := ToyFloat) ⟨.numeric, 0, ⟨0⟩, 8⟩ (natBits 8 n) [value ⟨.numeric, 0, ⟨0⟩, 8⟩ 8 n] :=
    .number (n := 8) (raw := n) (.inl rfl) rfl (by decide) h
  have := Coded.element (F := ToyFloat) (W := Single) (compatible := false) (x := ⟨{}, [], seen, back, cur, reus, targets⟩) (ts := ts)
    (d := ⟨id, .b AcceptExample.temperature⟩) (e := AcceptExample.temperature) rfl (ab := []) (as := []) (by rw [ite_self]; exact .nil) hs ht
  exact this

theorem two (a b : Nat) (ha : a < 2 ^ 8) (hb : b < 2 ^ 8) : ∃ y, Coded Single false {} tree5 (natBits 8 2 ++ (natBits 8 a ++ natBits 8 b))
    [factor 2, degrees a, degrees b] y := by
  have h2 := coded_element ({} : Ctx) rfl rfl 31001 2 (by decide) [] [] [] _ .nil
  have h3 := coded_element (({} : Ctx).add [factor 2]) rfl rfl 12001 a ha _ _ _ _
    (coded_element ((({} : Ctx).add [factor 2]).add [degrees a]) rfl rfl 12001 b hb [] [] [] _ .nil)
  have := Coded.delayed (F := ToyFloat) (W := Single) (compatible := false) (x := {}) (ts := []) (d := ⟨101000, .r (str "101000")⟩)
    (m := .element ⟨31001, .b AcceptExample.temperature⟩ false) (ms := [.element ⟨12001, .b AcceptExample.temperature⟩ false]) (k := 2) h2 rfl rfl
    (by intro w hw; cases hw) (by decide) h3
  exact ⟨_, by simpa using! this⟩

theorem one (a : Nat) (ha : a < 2 ^ 8) : ∃ y, Coded Single false {} tree5 (natBits 8 1 ++ natBits 8 a) [factor 1, degrees a] y := by
  have h2 := coded_element ({} : Ctx) rfl rfl 31001 1 (by decide) [] [] [] _ .nil
  have h3 := coded_element (({} : Ctx).add [factor 1]) rfl rfl 12001 a ha [] [] [] _ .nil
  have := Coded.delayed (F := ToyFloat) (W := Single) (compatible := false) (x := {}) (ts := []) (d := ⟨101000, .r (str "101000")⟩)
    (m := .element ⟨31001, .b AcceptExample.temperature⟩ false) (ms := [.element ⟨12001, .b AcceptExample.temperature⟩ false]) (k := 1) h2 rfl rfl
    (by intro w hw; cases hw) (by decide) h3
  exact ⟨_, by simpa using! this⟩

def shown : List (List (Option (NodeDesc × PackingInfo ToyFloat × Val ToyFloat))) :=
  [written [factor 2, degrees 0x12, degrees 0x13] 0, written [factor 1, degrees 0x14] 0, written [factor 2, degrees 0x15, degrees 0x16] 0]

theorem runs5 : ∃ m s' p,
    Runtime.run cfg5 (Fac.new (.bin ⟨BitReader.bitsOfBytes ([] ++ bytes5 ++ []), 8 * 0⟩) : Fac ToyFloat) = (.ok m, s') ∧
    fieldValue m 3 "isCompressed" = some (.bool false) ∧ LocalFits m ∧ Means cfg5 m tree5 ∧ payloadOf m = some p ∧
    p.subsets.map reported = shown ∧ ∀ x ∈ shown, ∀ d info v, some (d, info, v) ∈ x → EncodeSpec.Proper info v := by
  refine (C100_uncompressed_exactly cfg5 rfl _ _ 0 rfl (by decide) _).2 ⟨draft5, [], bytes5, [],
    [(natBits 8 2 ++ (natBits 8 0x12 ++ natBits 8 0x13), _), (natBits 8 1 ++ natBits 8 0x14, _),
      (natBits 8 2 ++ (natBits 8 0x15 ++ natBits 8 0x16), _)], ⟨rfl, by decide, by decide +kernel⟩, sound5, ?_, ⟨rfl, rfl, rfl, ?_⟩, rfl⟩
  · exact ⟨group5, rootDescriptor, found5, parsed5⟩
  · simpa using! ⟨two 0x12 0x13 (by decide) (by decide), one 0x14 (by decide), two 0x15 0x16 (by decide) (by decide)⟩

/-- The first and the third subset have the same factor and so the same elements; the second has not. -/
example : ∃ (m : Message ToyFloat) (p : Payload ToyFloat) (a b c : Subset ToyFloat), payloadOf m = some p ∧ p.subsets = [a, b, c] ∧
    places (reported a) = places (reported c) ∧ places (reported a) ≠ places (reported b) := by
  obtain ⟨m, s1, p, h, h1, h2, h3, h4, h5, h6⟩ := runs5
  obtain ⟨a, b, c, e⟩ : ∃ a b c, p.subsets = [a, b, c] := by
    have := congrArg List.length h5
    rw [List.length_map] at this
    exact List.length_eq_three.1 this
  rw [e] at h5
  simp only [List.map_cons, List.map_nil, shown, List.cons.injEq, and_true] at h5
  have hw : ∀ sub ∈ p.subsets, ∀ d info v, some (d, info, v) ∈ reported sub → EncodeSpec.Proper info v := by
    intro sub hsub
    refine h6 _ ?_
    rw [e] at hsub
    simp only [List.mem_cons, List.not_mem_nil, or_false] at hsub
    rcases hsub with rfl | rfl | rfl
    · rw [h5.1]; exact .head _
    · rw [h5.2.1]; exact .tail _ (.head _)
    · rw [h5.2.2]; exact .tail _ (.tail _ (.head _))
  refine ⟨m, p, a, b, c, h4, e, C124_subsets tree5 (by decide) (by decide) cfg5 cfg5 rfl rfl rfl _ s1 _ s1 m m _ _ 0 0 rfl rfl h h h1 h1
    h2 h2 h3 h3 p p h4 h4 hw hw a c (by rw [e]; simp) (by rw [e]; simp) (by rw [h5.1, h5.2.2]; rfl), ?_⟩
  rw [h5.1, h5.2.1]
  intro hc
  exact absurd (congrArg List.length hc) (by decide)

open LosslessExample in
/-- The compressed message with itself, and with the uncompressed one. -/
example : ∃ (p p' : Payload Double) (a : Subset Double), p.subsets.length = 2 ∧ a ∈ p'.subsets ∧
    (∀ sub ∈ p.subsets, ∀ sub' ∈ p.subsets, places (reported sub) = places (reported sub')) ∧
    ∀ sub ∈ p.subsets, places (reported a) = places (reported sub) := by
  obtain ⟨m, s1, p, h, h1, h0, h2, h3, h4, h5, h6⟩ := (C100_compressed_exactly (F := Double) cfg rfl
    (Fac.new (.bin ⟨BitReader.bitsOfBytes ([] ++ bytes4 ++ [7]), 8 * 0⟩)) _ 0 rfl (by decide) _).2
    ⟨draft4, [], bytes4, [7], 2, _, ⟨rfl, by decide, by decide +kernel⟩, sound4, ⟨group, rootDescriptor, found, parsed⟩, by decide,
      ⟨rfl, rfl, LosslessExample.codedC⟩, rfl⟩
  obtain ⟨m', s1', p', h', h1', h2', h3', h4', h5', h6'⟩ := LosslessExample.runs [0x42, 0x55] (by decide)
  have hw : ∀ sub ∈ p.subsets, ∀ d info v, some (d, info, v) ∈ reported sub → ProperColumn info :=
    fun sub hsub => h6 _ (h5 ▸ List.mem_map_of_mem hsub)
  have hw' : ∀ sub ∈ p'.subsets, ∀ d info v, some (d, info, v) ∈ reported sub → EncodeSpec.Proper info v :=
    fun sub hsub => h6' _ (h5' ▸ List.mem_map_of_mem hsub)
  have hl : p.subsets.length = 2 := by simpa using congrArg List.length h5
  obtain ⟨a, b, e⟩ : ∃ a b, p'.subsets = [a, b] := List.length_eq_two.1 (by simpa using congrArg List.length h5')
  refine ⟨p, p', a, hl, by rw [e]; simp, C124_compressed tree (by decide) (by decide) cfg cfg rfl rfl rfl _ s1 _ s1 m m _ _ 0 0 rfl rfl h h
    h1 h1 h0 h0 h2 h2 h3 h3 p p h4 h4 hw hw rfl, C124_mixed tree (by decide) (by decide) cfg cfg rfl rfl rfl _ s1' _ s1 m' m _ _ 0 0 rfl rfl
    h' h h1' h1 h0 h2' h2 h3' h3 p' p h4' h4 hw' hw a (by rw [e]; simp) ?_⟩
  have hh := congrArg (fun l => l.head?.map steering) h5
  simp only [List.head?_map, Option.map_map] at hh
  rw [e] at h5'
  have ha : reported a = written [datum 0x12] 0 := by simpa using (List.cons.inj h5').1
  rw [ha]
  exact hh

end SteeredExample

end Gobufr
