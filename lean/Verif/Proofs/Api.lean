import Verif.Spec.Api
import Verif.Spec.Safe

/-!
# Lemmas on the memory of scripts
-/

namespace Gobufr

variable {F : Type}

open Objects

/-! ## Growing -/

namespace Objects

theorem Grows.refl (a : Mem F) : Grows a a where
  fields := List.prefix_refl _
  sections i x h := ⟨x, [], h, rfl, rfl, rfl, by simp, by simp⟩
  messages i x h := ⟨x, [], h, rfl, by simp, by simp⟩

theorem lookup_lt {l : List α} {i : Nat} {x : α} (h : l[i]? = some x) : i < l.length := by
  rcases Nat.lt_or_ge i l.length with h' | h'
  · exact h'
  · rw [List.getElem?_eq_none h'] at h; cases h

theorem Grows.length_sections {a b : Mem F} (h : Grows a b) : a.sections.length ≤ b.sections.length := by
  rcases Nat.lt_or_ge b.sections.length a.sections.length with hlt | hge
  · obtain ⟨y, _, hy, _⟩ := h.sections b.sections.length (a.sections[b.sections.length]) (by simp)
    exact absurd (lookup_lt hy) (by omega)
  · exact hge

theorem Grows.trans {a b d : Mem F} (h : Grows a b) (h' : Grows b d) : Grows a d where
  fields := h.fields.trans h'.fields
  sections i x hx := by
    obtain ⟨y, m, hy, h1, h2, h3, h4, h5⟩ := h.sections i x hx
    obtain ⟨z, n, hz, k1, k2, k3, k4, k5⟩ := h'.sections i y hy
    refine ⟨z, m ++ n, hz, k1.trans h1, k2.trans h2, k3.trans h3, by rw [k4, h4]; simp, ?_⟩
    intro f hf
    rcases List.mem_append.1 hf with hf | hf
    · exact h5 f hf
    · exact Nat.le_trans h.fields.length_le (k5 f hf)
  messages i x hx := by
    obtain ⟨y, m, hy, h1, h4, h5⟩ := h.messages i x hx
    obtain ⟨z, n, hz, k1, k4, k5⟩ := h'.messages i y hy
    refine ⟨z, m ++ n, hz, k1.trans h1, by rw [k4, h4]; simp, ?_⟩
    intro f hf
    rcases List.mem_append.1 hf with hf | hf
    · exact h5 f hf
    · exact Nat.le_trans h.length_sections (k5 f hf)

end Objects

/-! ## Calls that keep the factory in order -/

/-- The call only adds objects, and leaves the factory in order unless it crashes. -/
def Keeps (m : M (PFac F) α) : Prop :=
  ∀ p, Ready p → Grows p.mem (m p).2.mem ∧ (¬ (m p).1.crashed → Ready (m p).2)

/-- The call does not touch the objects. -/
def Aloof (m : M (PFac F) α) : Prop :=
  ∀ p, (m p).2.mem = p.mem ∧ (m p).2.message = p.message ∧ (m p).2.sec = p.sec

theorem Aloof.keeps {m : M (PFac F) α} (h : Aloof m) : Keeps m := by
  intro p hp
  obtain ⟨h1, h2, h3⟩ := h p
  refine ⟨h1 ▸ Grows.refl _, fun _ => ?_⟩
  refine ⟨h1 ▸ hp.owned, ?_, ?_⟩
  · rw [h1, h2]; exact hp.message
  · rw [h1, h2, h3]; exact hp.sec

theorem Keeps.bind {m : M (PFac F) α} {f : α → M (PFac F) β} (hm : Keeps m) (hf : ∀ a, Keeps (f a)) :
    Keeps (m >>= f) := by
  intro p hp
  obtain ⟨h1, h2⟩ := hm p hp
  rw [M.bind_apply]
  rcases h : m p with ⟨o, p'⟩
  rw [h] at h1 h2
  cases o with
  | ok a =>
    have hp' := h2 (fun h => h)
    obtain ⟨k1, k2⟩ := hf a p' hp'
    exact ⟨h1.trans k1, k2⟩
  | err e => exact ⟨h1, h2⟩
  | panic w => exact ⟨h1, h2⟩
  | diverge => exact ⟨h1, h2⟩

theorem Aloof.bind {m : M (PFac F) α} {f : α → M (PFac F) β} (hm : Aloof m) (hf : ∀ a, Aloof (f a)) :
    Aloof (m >>= f) := by
  intro p
  obtain ⟨h1, h2, h3⟩ := hm p
  rw [M.bind_apply]
  rcases h : m p with ⟨o, p'⟩
  rw [h] at h1 h2 h3
  cases o with
  | ok a =>
    obtain ⟨k1, k2, k3⟩ := hf a p'
    exact ⟨k1.trans h1, k2.trans h2, k3.trans h3⟩
  | err e => exact ⟨h1, h2, h3⟩
  | panic w => exact ⟨h1, h2, h3⟩
  | diverge => exact ⟨h1, h2, h3⟩

theorem wrapErr_snd (w : String) (m : M σ α) (s : σ) : (M.wrapErr w m s).2 = (m s).2 := by
  unfold M.wrapErr
  rcases m s with ⟨o, s'⟩
  cases o <;> rfl

theorem wrapErr_crash (w : String) (m : M σ α) (s : σ) :
    (M.wrapErr w m s).1.crashed = (m s).1.crashed := by
  unfold M.wrapErr
  rcases m s with ⟨o, s'⟩
  cases o <;> rfl

theorem Keeps.raise {m : M (PFac F) α} (hm : Keeps m) : Keeps (Gobufr.raise m) := by
  intro p hp
  unfold Gobufr.raise
  rw [wrapErr_snd, wrapErr_crash]
  exact hm p hp

theorem Aloof.wrapErr {m : M (PFac F) α} {w : String} (hm : Aloof m) : Aloof (M.wrapErr w m) := by
  intro p
  rw [wrapErr_snd]
  exact hm p

theorem aloof_pure (a : α) : Aloof (pure a : M (PFac F) α) := fun _ => ⟨rfl, rfl, rfl⟩
theorem aloof_fail (e : Err) : Aloof (M.fail e : M (PFac F) α) := fun _ => ⟨rfl, rfl, rfl⟩
theorem aloof_crash (w : String) : Aloof (M.crash w : M (PFac F) α) := fun _ => ⟨rfl, rfl, rfl⟩
theorem aloof_gets (g : PFac F → α) : Aloof (M.gets g) := fun _ => ⟨rfl, rfl, rfl⟩
theorem aloof_lift (o : Outcome α) : Aloof (M.lift o : M (PFac F) α) := fun _ => ⟨rfl, rfl, rfl⟩
theorem aloof_onFac (m : M (Fac F) α) : Aloof (PFac.onFac m) := fun _ => ⟨rfl, rfl, rfl⟩

theorem aloof_setUt (ut : Option UnexpandedTemplate) :
    Aloof (M.modify fun p : PFac F => { p with ut := ut }) := fun _ => ⟨rfl, rfl, rfl⟩

theorem aloof_theMessage : Aloof (PFac.theMessage : M (PFac F) MsgRef) := by
  intro p; unfold PFac.theMessage; split <;> exact ⟨rfl, rfl, rfl⟩

theorem aloof_theSection : Aloof (PFac.theSection : M (PFac F) SecRef) := by
  intro p; unfold PFac.theSection; split <;> exact ⟨rfl, rfl, rfl⟩

theorem aloof_derefMsg (m : Option MsgRef) : Aloof (Op.derefMsg m : M (PFac F) _) := by
  intro p; unfold Op.derefMsg; split <;> (try split) <;> exact ⟨rfl, rfl, rfl⟩

theorem aloof_derefSec (i : SecRef) : Aloof (Op.derefSec i : M (PFac F) _) := by
  intro p; unfold Op.derefSec; split <;> exact ⟨rfl, rfl, rfl⟩

theorem aloof_derefFld (i : Option FieldRef) : Aloof (Op.derefFld i : M (PFac F) _) := by
  intro p; unfold Op.derefFld; split <;> (try split) <;> exact ⟨rfl, rfl, rfl⟩

theorem aloof_bitsLeft (n : Nat) : Aloof (PFac.bitsLeft n : M (PFac F) Int) :=
  aloof_theSection.bind fun _ => aloof_gets _

/-! ## Creating objects -/

theorem flatMap_modify_perm {α : Type} {g : α → α} {k : α → List Nat} {n : Nat}
    (hg : ∀ x, k (g x) = k x ++ [n]) : ∀ (l : List α) (i : Nat), i < l.length →
    ((l.modify i g).flatMap k).Perm (l.flatMap k ++ [n])
  | [], i, h => absurd h (by simp)
  | x :: xs, 0, _ => by
    simp only [List.modify_zero_cons, List.flatMap_cons, hg, List.append_assoc]
    exact List.Perm.append_left _ List.perm_append_comm
  | x :: xs, i + 1, h => by
    simp only [List.modify_succ_cons, List.flatMap_cons, List.append_assoc]
    exact List.Perm.append_left _ (flatMap_modify_perm hg xs i (by simpa using h))

theorem flatMap_modify_eq {α : Type} {g : α → α} {k : α → List Nat} (hg : ∀ x, k (g x) = k x) :
    ∀ (l : List α) (i : Nat), (l.modify i g).flatMap k = l.flatMap k
  | [], i => by simp
  | x :: xs, 0 => by simp [List.flatMap_cons, hg]
  | x :: xs, i + 1 => by simp [List.flatMap_cons, flatMap_modify_eq hg xs i]

theorem mem_modify {α : Type} {g : α → α} {y : α} : ∀ {l : List α} {i : Nat}, y ∈ l.modify i g →
    y ∈ l ∨ ∃ x, l[i]? = some x ∧ y = g x
  | [], i, h => by simp at h
  | x :: xs, 0, h => by
    rcases List.mem_cons.1 (by simpa using h) with h | h
    · exact .inr ⟨x, rfl, h⟩
    · exact .inl (List.mem_cons_of_mem _ h)
  | x :: xs, i + 1, h => by
    rw [List.modify_succ_cons] at h
    rcases List.mem_cons.1 h with h | h
    · exact .inl (h ▸ List.mem_cons_self)
    · rcases mem_modify h with h | h
      · exact .inl (List.mem_cons_of_mem _ h)
      · exact .inr (by simpa using h)

theorem getElem?_modify' {α : Type} {g : α → α} {l : List α} {i j : Nat} {x : α} (h : l[j]? = some x) :
    (l.modify i g)[j]? = some (if i = j then g x else x) := by
  rw [List.getElem?_modify, h]
  simp

theorem modify_last {α : Type} {g : α → α} {x : α} : ∀ l : List α,
    (l ++ [x]).modify l.length g = l ++ [g x]
  | [] => rfl
  | y :: ys => by simp [modify_last ys]

/-- All references in a list owned by the memory exist. -/
theorem Objects.Owned.lt_fields {mem : Mem F} (h : Owned mem) {s : SecObj} (hs : s ∈ mem.sections)
    {f : FieldRef} (hf : f ∈ s.fields) : f < mem.fields.length := by
  have : f ∈ mem.sections.flatMap (·.fields) := List.mem_flatMap.2 ⟨s, hs, hf⟩
  simpa using h.fields.mem_iff.1 this

theorem Objects.Owned.lt_sections {mem : Mem F} (h : Owned mem) {m : MsgObj} (hm : m ∈ mem.messages)
    {s : SecRef} (hs : s ∈ m.sections) : s < mem.sections.length := by
  have : s ∈ mem.messages.flatMap (·.sections) := List.mem_flatMap.2 ⟨m, hm, hs⟩
  simpa using h.sections.mem_iff.1 this

/-- Adding a field object to the memory and to a section. -/
def Mem.putField (mem : Mem F) (j : SecRef) (field : Field F) : Mem F :=
  { mem with fields := mem.fields ++ [field]
             sections := mem.sections.modify j fun x => { x with fields := x.fields ++ [mem.fields.length] } }

/-- Entering a proxy field. -/
def Mem.setProxy (mem : Mem F) (i : MsgRef) (name : GoString) (f : FieldRef) : Mem F :=
  { mem with messages := mem.messages.modify i fun m => { m with proxyFields := mapSet m.proxyFields name f } }

/-- Adding a section. -/
def Mem.putSection (mem : Mem F) (i : MsgRef) (number : Int) (description : GoString) (start : Int) : Mem F :=
  { mem with sections := mem.sections ++ [⟨number, description, start, 0, []⟩]
             messages := mem.messages.modify i fun m => { m with sections := m.sections ++ [mem.sections.length] } }

theorem mem_grows_alloc (mem : Mem F) (field : Field F) :
    Grows mem { mem with fields := mem.fields ++ [field] } where
  fields := List.prefix_append _ _
  sections i x h := ⟨x, [], h, rfl, rfl, rfl, by simp, by simp⟩
  messages i x h := ⟨x, [], h, rfl, by simp, by simp⟩

theorem grows_putField (mem : Mem F) (j : SecRef) (field : Field F) : Grows mem (mem.putField j field) where
  fields := List.prefix_append _ _
  sections i x h := by
    refine ⟨_, if j = i then [mem.fields.length] else [], getElem?_modify' h, ?_, ?_, ?_, ?_, ?_⟩
    all_goals by_cases hj : j = i <;> simp [hj]
  messages i x h := ⟨x, [], h, rfl, by simp, by simp⟩

theorem grows_setProxy (mem : Mem F) (i : MsgRef) (name : GoString) (f : FieldRef) :
    Grows mem (mem.setProxy i name f) where
  fields := List.prefix_refl _
  sections i x h := ⟨x, [], h, rfl, rfl, rfl, by simp, by simp⟩
  messages k x h := by
    refine ⟨_, [], getElem?_modify' h, ?_, ?_, by simp⟩
    all_goals by_cases hj : i = k <;> simp [hj]

theorem grows_putSection (mem : Mem F) (i : MsgRef) (n : Int) (d : GoString) (st : Int) :
    Grows mem (mem.putSection i n d st) where
  fields := List.prefix_refl _
  sections j x h := by
    refine ⟨x, [], ?_, rfl, rfl, rfl, by simp, by simp⟩
    show (mem.sections ++ _)[j]? = some x
    rw [List.getElem?_append_left (lookup_lt h)]
    exact h
  messages k x h := by
    refine ⟨_, if i = k then [mem.sections.length] else [], getElem?_modify' h, ?_, ?_, ?_⟩
    all_goals by_cases hj : i = k <;> simp [hj]

theorem owned_putField {mem : Mem F} (h : Owned mem) {j : SecRef} (hj : j < mem.sections.length)
    (field : Field F) : Owned (mem.putField j field) where
  fields := by
    show List.Perm _ (List.range (mem.fields ++ [field]).length)
    rw [List.length_append, List.length_singleton, List.range_succ]
    exact (flatMap_modify_perm (fun _ => rfl) _ _ hj).trans (h.fields.append_right _)
  sections := by
    show List.Perm _ (List.range (mem.sections.modify j _).length)
    rw [List.length_modify]
    exact h.sections
  fieldOrder s hs := by
    rcases mem_modify hs with hs | ⟨x, hx, rfl⟩
    · exact h.fieldOrder s hs
    · have hx' := List.mem_of_getElem? hx
      refine List.pairwise_append.2 ⟨h.fieldOrder x hx', by simp, ?_⟩
      intro a ha b hb
      rw [List.mem_singleton.1 hb]
      exact h.lt_fields hx' ha
  sectionOrder := h.sectionOrder
  proxies m hm e he := by
    obtain ⟨f, hf, hn⟩ := h.proxies m hm e he
    refine ⟨f, ?_, hn⟩
    show (mem.fields ++ _)[e.2]? = some f
    rw [List.getElem?_append_left (lookup_lt hf)]
    exact hf

theorem owned_setProxy {mem : Mem F} (h : Owned mem) (i : MsgRef) {f : FieldRef} {x : Field F}
    (hf : mem.fields[f]? = some x) : Owned (mem.setProxy i x.name f) where
  fields := h.fields
  sections := by
    show List.Perm ((mem.messages.modify i _).flatMap _) _
    exact (List.Perm.of_eq (flatMap_modify_eq (k := MsgObj.sections)
      (g := fun m => { m with proxyFields := mapSet m.proxyFields x.name f }) (fun _ => rfl) mem.messages i)).trans
      h.sections
  fieldOrder := h.fieldOrder
  sectionOrder m hm := by
    rcases mem_modify hm with hm | ⟨y, hy, rfl⟩
    · exact h.sectionOrder m hm
    · exact h.sectionOrder y (List.mem_of_getElem? hy)
  proxies m hm e he := by
    rcases mem_modify hm with hm | ⟨y, hy, rfl⟩
    · exact h.proxies m hm e he
    · rcases List.mem_cons.1 he with rfl | he
      · exact ⟨x, hf, rfl⟩
      · exact h.proxies y (List.mem_of_getElem? hy) e he

theorem owned_putSection {mem : Mem F} (h : Owned mem) {i : MsgRef} (hi : i < mem.messages.length)
    (n : Int) (d : GoString) (st : Int) : Owned (mem.putSection i n d st) where
  fields := by
    show List.Perm ((mem.sections ++ _).flatMap _) (List.range mem.fields.length)
    simpa using h.fields
  sections := by
    show List.Perm _ (List.range (mem.sections ++ _).length)
    rw [List.length_append, List.length_singleton, List.range_succ]
    exact (flatMap_modify_perm (fun _ => rfl) _ _ hi).trans (h.sections.append_right _)
  fieldOrder s hs := by
    rcases List.mem_append.1 hs with hs | hs
    · exact h.fieldOrder s hs
    · rw [List.mem_singleton.1 hs]; exact List.Pairwise.nil
  sectionOrder m hm := by
    rcases mem_modify hm with hm | ⟨x, hx, rfl⟩
    · exact h.sectionOrder m hm
    · have hx' := List.mem_of_getElem? hx
      refine List.pairwise_append.2 ⟨h.sectionOrder x hx', by simp, ?_⟩
      intro a ha b hb
      rw [List.mem_singleton.1 hb]
      exact h.lt_sections hx' ha
  proxies m hm e he := by
    rcases mem_modify hm with hm | ⟨y, hy, rfl⟩
    · exact h.proxies m hm e he
    · exact h.proxies y (List.mem_of_getElem? hy) e he

/-! ## What the calls do to the objects -/

namespace PFac

theorem putField_none {p : PFac F} (field : Field F) (proxy : Bool) (h : p.sec = none) :
    putField field proxy p = (.panic "nil pointer dereference",
      { p with mem := { p.mem with fields := p.mem.fields ++ [field] } }) := by
  simp [putField, M.bind_apply, allocField, addField, theSection, h]

theorem putField_plain {p : PFac F} (field : Field F) {j : SecRef} (h : p.sec = some j) :
    putField field false p = (.ok p.mem.fields.length, { p with mem := p.mem.putField j field }) := by
  simp [putField, M.bind_apply, allocField, addField, theSection, h, changeSection, Mem.putField]

theorem putField_proxy {p : PFac F} (field : Field F) {j : SecRef} {i : MsgRef} (h : p.sec = some j)
    (hi : p.message = some i) :
    putField field true p = (.ok p.mem.fields.length,
      { p with mem := (p.mem.putField j field).setProxy i field.name p.mem.fields.length }) := by
  simp [putField, M.bind_apply, allocField, addField, theSection, h, changeSection, Mem.putField,
    setProxyField, theMessage, hi, setProxyOf, changeMessage, Mem.setProxy]

theorem newSection_eq {p : PFac F} (n : Int) (d : GoString) {i : MsgRef} (hi : p.message = some i) :
    newSection n d p = (.ok p.mem.sections.length,
      { p with mem := p.mem.putSection i n d (p.r.pos.tdiv 8), sec := some p.mem.sections.length }) := by
  simp [newSection, M.bind_apply, theMessage, hi, allocSection, changeMessage, changeSection,
    Mem.putSection, modify_last]

end PFac

theorem keeps_putField (field : Field F) (proxy : Bool) : Keeps (PFac.putField field proxy) := by
  intro p hp
  cases h : p.sec with
  | none =>
    rw [PFac.putField_none field proxy h]
    exact ⟨mem_grows_alloc _ _, fun h => absurd trivial h⟩
  | some j =>
    obtain ⟨hj, hm⟩ := hp.sec j h
    obtain ⟨i, hi⟩ := Option.ne_none_iff_exists'.1 hm
    have hlen : ∀ k, k < p.mem.sections.length → k < (p.mem.putField j field).sections.length := by
      intro k hk; simpa [Mem.putField] using hk
    cases proxy with
    | false =>
      rw [PFac.putField_plain field h]
      refine ⟨grows_putField _ _ _, fun _ => ⟨owned_putField hp.owned hj field, hp.message, ?_⟩⟩
      intro k hk
      exact ⟨hlen k (hp.sec k hk).1, (hp.sec k hk).2⟩
    | true =>
      rw [PFac.putField_proxy field h hi]
      refine ⟨(grows_putField _ _ _).trans (grows_setProxy _ _ _ _), fun _ => ⟨?_, ?_, ?_⟩⟩
      · exact owned_setProxy (owned_putField hp.owned hj field) i (by simp [Mem.putField])
      · intro k hk
        simpa [Mem.setProxy, Mem.putField] using hp.message k hk
      · intro k hk
        exact ⟨hlen k (hp.sec k hk).1, (hp.sec k hk).2⟩

theorem keeps_newSection (n : Int) (d : GoString) : Keeps (PFac.newSection n d : M (PFac F) SecRef) := by
  intro p hp
  cases hi : p.message with
  | none =>
    have : PFac.newSection n d p = (.panic "nil pointer dereference", p) := by
      simp [PFac.newSection, M.bind_apply, PFac.theMessage, hi]
    rw [this]
    exact ⟨Grows.refl _, fun h => absurd trivial h⟩
  | some i =>
    rw [PFac.newSection_eq n d hi]
    refine ⟨grows_putSection _ _ _ _ _, fun _ => ⟨owned_putSection hp.owned (hp.message i hi) _ _ _, ?_, ?_⟩⟩
    · intro k hk
      simpa [Mem.putSection] using hp.message k hk
    · intro k hk
      cases hk
      exact ⟨by simp [Mem.putSection], by rw [hi]; simp⟩

theorem keeps_newMessage (path : GoString) : Keeps (PFac.newMessage path : M (PFac F) MsgRef) := by
  intro p hp
  have hg : Grows p.mem { p.mem with messages := p.mem.messages ++ [{ inputPath := path }] } :=
    ⟨List.prefix_refl _, fun i x h => ⟨x, [], h, rfl, rfl, rfl, by simp, by simp⟩, fun i x h =>
      ⟨x, [], by show (p.mem.messages ++ _)[i]? = _; rw [List.getElem?_append_left (lookup_lt h)]; exact h,
        rfl, by simp, by simp⟩⟩
  refine ⟨hg, fun _ => ⟨⟨hp.owned.fields, ?_, hp.owned.fieldOrder, ?_, ?_⟩, ?_, ?_⟩⟩
  · show List.Perm ((p.mem.messages ++ _).flatMap _) (List.range p.mem.sections.length)
    simpa using hp.owned.sections
  · intro m hm
    rcases List.mem_append.1 hm with hm | hm
    · exact hp.owned.sectionOrder m hm
    · rw [List.mem_singleton.1 hm]; exact List.Pairwise.nil
  · intro m hm
    rcases List.mem_append.1 hm with hm | hm
    · exact hp.owned.proxies m hm
    · rw [List.mem_singleton.1 hm]; simp
  · intro i hi
    cases hi
    simp [PFac.newMessage]
  · intro j hj
    exact ⟨(hp.sec j hj).1, by simp [PFac.newMessage]⟩

theorem keeps_setProxyOf (i : MsgRef) (f : FieldRef) : Keeps (PFac.setProxyOf i f : M (PFac F) Unit) := by
  intro p hp
  unfold PFac.setProxyOf
  cases hf : p.mem.fields[f]? with
  | none => exact ⟨Grows.refl _, fun h => absurd trivial h⟩
  | some x =>
    refine ⟨grows_setProxy p.mem i x.name f, fun _ => ⟨owned_setProxy hp.owned i hf, ?_, hp.sec⟩⟩
    intro k hk
    simpa [PFac.changeMessage] using hp.message k hk

theorem keeps_setPadding (j : SecRef) (n : Int) :
    Keeps (PFac.changeSection j (fun x => { x with padding := n }) : M (PFac F) Unit) := by
  intro p hp
  refine ⟨⟨List.prefix_refl _, ?_, fun i x h => ⟨x, [], h, rfl, by simp, by simp⟩⟩, fun _ => ⟨⟨?_, ?_, ?_, hp.owned.sectionOrder, hp.owned.proxies⟩, hp.message, ?_⟩⟩
  · intro i x h
    refine ⟨_, [], getElem?_modify' h, ?_, ?_, ?_, ?_, by simp⟩
    all_goals by_cases hj : j = i <;> simp [hj]
  · show List.Perm ((p.mem.sections.modify j _).flatMap _) _
    exact (List.Perm.of_eq (flatMap_modify_eq (k := SecObj.fields) (g := fun x => { x with padding := n })
      (fun _ => rfl) p.mem.sections j)).trans hp.owned.fields
  · show List.Perm _ (List.range (p.mem.sections.modify j _).length)
    rw [List.length_modify]
    exact hp.owned.sections
  · intro s hs
    rcases mem_modify hs with hs | ⟨y, hy, rfl⟩
    · exact hp.owned.fieldOrder s hs
    · exact hp.owned.fieldOrder y (List.mem_of_getElem? hy)
  · intro k hk
    refine ⟨?_, (hp.sec k hk).2⟩
    show k < (p.mem.sections.modify j _).length
    rw [List.length_modify]
    exact (hp.sec k hk).1

/-- A condition decides which of two calls is made. -/
theorem Keeps.ite {c : Prop} [Decidable c] {m n : M (PFac F) α} (hm : Keeps m) (hn : Keeps n) :
    Keeps (if c then m else n) := by split <;> assumption

section
variable [GoFloat F]

theorem keeps_newField (name : GoString) (t : DataType) (n : Int) (proxy : Bool) :
    Keeps (PFac.newField name t n proxy : M (PFac F) FieldRef) :=
  (aloof_onFac _).keeps.bind fun _ => keeps_putField _ _

theorem keeps_newTemplateField (name : GoString) (f x y : Int) (n : Nat) :
    Keeps (PFac.newTemplateField name f x y n : M (PFac F) FieldRef) :=
  (aloof_bitsLeft n).keeps.bind fun _ => (aloof_crash _).keeps.ite <| (aloof_crash _).keeps.ite <|
    (aloof_onFac _).keeps.bind fun _ =>
      (aloof_setUt _).keeps.bind fun _ => keeps_putField _ _

theorem keeps_newPayloadField (c : FacCfg) (name : GoString) (n : Int) (b : Bool) :
    Keeps (PFac.newPayloadField c name n b : M (PFac F) FieldRef) :=
  (aloof_gets _).keeps.bind fun _ => (aloof_onFac _).keeps.bind fun _ => (aloof_onFac _).keeps.bind fun _ =>
    (aloof_onFac _).keeps.bind fun _ => (aloof_gets _).keeps.bind fun _ => keeps_putField _ _

omit [GoFloat F] in
theorem keeps_padding (n : Nat) : Keeps (PFac.padding n : M (PFac F) Unit) :=
  (aloof_bitsLeft n).keeps.bind fun k => (aloof_pure _).keeps.ite <| (aloof_fail _).keeps.ite <|
    aloof_theSection.keeps.bind fun j => (keeps_setPadding j k).bind fun _ =>
      (aloof_onFac _).wrapErr.keeps.bind fun o =>
        match o with
        | none => (aloof_crash _).keeps
        | some _ => (keeps_putField _ _).bind fun _ => (aloof_pure _).keeps

theorem keeps_op (c : FacCfg) (op : Op F) : Keeps (op.run c) := by
  cases op with
  | getMessage => exact (aloof_gets _).keeps
  | newMessage p => exact (keeps_newMessage _).bind fun _ => (aloof_pure _).keeps
  | newSection n d => exact (keeps_newSection _ _).bind fun _ => (aloof_pure _).keeps
  | initTableGroup a b d e g => exact (aloof_onFac _).keeps.raise.bind fun _ => (aloof_pure _).keeps
  | newField n t b p => exact (keeps_newField _ _ _ _).raise.bind fun _ => (aloof_pure _).keeps
  | newTemplateField n f x y l => exact (keeps_newTemplateField _ _ _ _ _).raise.bind fun _ => (aloof_pure _).keeps
  | newPayloadField n s b => exact (keeps_newPayloadField _ _ _ _).raise.bind fun _ => (aloof_pure _).keeps
  | padding l => exact (keeps_padding _).raise.bind fun _ => (aloof_pure _).keeps
  | peekEditionNumber => exact (aloof_onFac _).keeps.raise.bind fun _ => (aloof_pure _).keeps
  | setProxyField m f =>
    cases m with
    | msg m =>
      cases f with
      | fld f =>
        cases f with
        | none => exact (aloof_crash _).keeps
        | some f => exact (aloof_derefMsg m).keeps.bind fun _ => (keeps_setProxyOf _ _).bind fun _ => (aloof_pure _).keeps
      | _ => exact (aloof_crash _).keeps
    | _ => exact (aloof_fail _).keeps
  | getProxyField m n =>
    cases m with
    | msg m =>
      refine (aloof_derefMsg m).keeps.bind fun ⟨i, x⟩ => ?_
      show Keeps (match mapGet x.proxyFields n.toText with
        | some f => pure (LVal.fld (some f))
        | none => raise (M.fail (.msg "no proxy field")))
      split
      · exact (aloof_pure _).keeps
      · exact (aloof_fail _).keeps.raise
    | _ => exact (aloof_fail _).keeps
  | getField s n =>
    cases s with
    | sec i => exact (aloof_derefSec i).keeps.bind fun _ => (aloof_gets _).keeps
    | _ => exact (aloof_fail _).keeps
  | getNumberOfFields s =>
    cases s with
    | sec i => exact (aloof_derefSec i).keeps.bind fun _ => (aloof_pure _).keeps
    | _ => exact (aloof_fail _).keeps
  | value f =>
    cases f with
    | fld f => exact (aloof_derefFld f).keeps.bind fun _ => (aloof_lift _).keeps.bind fun _ => (aloof_pure _).keeps
    | _ => exact (aloof_fail _).keeps
  | isMissing f =>
    cases f with
    | fld f => exact (aloof_derefFld f).keeps.bind fun _ => (aloof_pure _).keeps
    | _ => exact (aloof_fail _).keeps

theorem keeps_run (c : FacCfg) : ∀ prog : Prog F, Keeps (prog.run c)
  | .ret v => (aloof_pure v).keeps
  | .error e => (aloof_fail e).keeps
  | .call op k => (keeps_op c op).bind fun v => keeps_run c (k v)
  | .pcall f k => by
    intro p hp
    obtain ⟨h1, h2⟩ := keeps_run c f p hp
    simp only [Prog.run, M.handle]
    rcases hr : f.run c p with ⟨o, p'⟩
    rw [hr] at h1 h2
    cases o with
    | ok v =>
      obtain ⟨k1, k2⟩ := keeps_run c (k (some v)) p' (h2 (fun h => h))
      exact ⟨h1.trans k1, k2⟩
    | err e =>
      obtain ⟨k1, k2⟩ := keeps_run c (k none) p' (h2 (fun h => h))
      exact ⟨h1.trans k1, k2⟩
    | panic w => exact ⟨h1, fun h => absurd trivial h⟩
    | diverge => exact ⟨h1, fun h => absurd trivial h⟩

theorem keeps_runScript (c : FacCfg) (prog : Prog F) : Keeps (PFac.runScript c prog) :=
  (aloof_onFac _).keeps.bind fun _ => (keeps_run c prog).bind fun v => by
    cases v with
    | msg m => exact (aloof_pure _).keeps
    | _ => exact (aloof_crash _).keeps

end

theorem ready_new (r : Reader F) : Ready (PFac.new r) where
  owned := ⟨by simp [PFac.new], by simp [PFac.new], by simp [PFac.new], by simp [PFac.new], by simp [PFac.new]⟩
  message := by simp [PFac.new]
  sec := by simp [PFac.new]

/-! ## Scripts that stay with a message -/

theorem Objects.Within.grows {a b : Mem F} {f : FieldRef} {i : MsgRef} (h : Within a f i) (g : Grows a b) :
    Within b f i := by
  obtain ⟨m, j, s, hm, hj, hs, hf⟩ := h
  obtain ⟨m', more, hm', _, e, _⟩ := g.messages i m hm
  obtain ⟨s', more', hs', _, _, _, e', _⟩ := g.sections j s hs
  exact ⟨m', j, s', hm', by rw [e]; exact List.mem_append_left _ hj, hs', by rw [e']; exact List.mem_append_left _ hf⟩

theorem Objects.Current.grows {p q : PFac F} (h : Current p) (g : Grows p.mem q.mem) (hm : q.message = p.message)
    (hs : q.sec = p.sec) : Current q := by
  obtain ⟨i, m, j, h1, h2, h3, h4⟩ := h
  obtain ⟨m', more, hm', _, e, _⟩ := g.messages i m h2
  exact ⟨i, m', j, hm.trans h1, hm', hs.trans h3, by rw [e]; exact List.mem_append_left _ h4⟩

/-- The call leaves the current message and section together and puts new fields into them. -/
def Stays (m : M (PFac F) α) : Prop := Keeps m ∧ ∀ p, Ready p → Current p → ¬ (m p).1.crashed →
  Current (m p).2 ∧ (m p).2.message = p.message ∧ ∀ i f, p.message = some i → p.mem.fields.length ≤ f →
    f < (m p).2.mem.fields.length → Within (m p).2.mem f i

theorem Aloof.stays {m : M (PFac F) α} (h : Aloof m) : Stays m := by
  refine ⟨h.keeps, fun p hp hc _ => ?_⟩
  obtain ⟨h1, h2, h3⟩ := h p
  refine ⟨hc.grows (h1 ▸ Grows.refl _) h2 h3, h2, fun i f _ hf hf' => ?_⟩
  rw [h1] at hf'
  omega

theorem Stays.bind {m : M (PFac F) α} {f : α → M (PFac F) β} (hm : Stays m) (hf : ∀ a, Stays (f a)) :
    Stays (m >>= f) := by
  refine ⟨hm.1.bind fun a => (hf a).1, fun p hp hc hn => ?_⟩
  have k := hm.1 p hp
  have k' := hm.2 p hp hc
  rw [M.bind_apply] at hn ⊢
  rcases h : m p with ⟨o, p'⟩
  rw [h] at k k' hn
  cases o with
  | ok a =>
    obtain ⟨hc', hmsg, hw⟩ := k' (fun h => h)
    have hp' := k.2 (fun h => h)
    obtain ⟨hc'', hmsg', hw'⟩ := (hf a).2 p' hp' hc' hn
    have hg := ((hf a).1 p' hp').1
    refine ⟨hc'', hmsg'.trans hmsg, fun i g hi hg1 hg2 => ?_⟩
    rcases Nat.lt_or_ge g p'.mem.fields.length with hlt | hge
    · exact (hw i g hi hg1 hlt).grows hg
    · exact hw' i g (hmsg.trans hi) hge hg2
  | err e => exact k' (fun h => h)
  | panic w => exact absurd trivial hn
  | diverge => exact absurd trivial hn

theorem Stays.raise {m : M (PFac F) α} (hm : Stays m) : Stays (Gobufr.raise m) := by
  refine ⟨hm.1.raise, fun p hp hc hn => ?_⟩
  unfold Gobufr.raise at hn ⊢
  rw [wrapErr_crash] at hn
  rw [wrapErr_snd]
  exact hm.2 p hp hc hn

theorem Stays.ite {c : Prop} [Decidable c] {m n : M (PFac F) α} (hm : Stays m) (hn : Stays n) :
    Stays (if c then m else n) := by split <;> assumption

theorem stays_putField (field : Field F) (proxy : Bool) : Stays (PFac.putField field proxy) := by
  refine ⟨keeps_putField field proxy, fun p hp hc hn => ?_⟩
  have hg := (keeps_putField field proxy p hp).1
  obtain ⟨i, m, j, hi, hm, hj, hjm⟩ := hc
  have hjl := (hp.sec j hj).1
  have new : ∀ q : Mem F, q = p.mem.putField j field →
      ∀ f, p.mem.fields.length ≤ f → f < q.fields.length → Within q f i := by
    intro q hq f h1 h2
    subst hq
    have : f = p.mem.fields.length := by simp [Mem.putField] at h2; omega
    subst this
    refine ⟨m, j, _, hm, hjm, getElem?_modify' (List.getElem?_eq_getElem hjl), ?_⟩
    simp
  cases proxy with
  | false =>
    rw [PFac.putField_plain field hj] at hg ⊢
    refine ⟨Current.grows ⟨i, m, j, hi, hm, hj, hjm⟩ hg rfl rfl, rfl, fun k f hk h1 h2 => ?_⟩
    rw [show k = i from by rw [hi] at hk; exact (Option.some.inj hk).symm]
    exact new _ rfl f h1 h2
  | true =>
    rw [PFac.putField_proxy field hj hi] at hg ⊢
    refine ⟨Current.grows ⟨i, m, j, hi, hm, hj, hjm⟩ hg rfl rfl, rfl, fun k f hk h1 h2 => ?_⟩
    rw [show k = i from by rw [hi] at hk; exact (Option.some.inj hk).symm]
    exact (new _ rfl f h1 h2).grows (grows_setProxy _ _ _ _)

/-- A call that creates no field and keeps the pointers. -/
theorem Keeps.stays {m : M (PFac F) α} (hk : Keeps m) (h : ∀ p, (m p).2.message = p.message ∧
    (m p).2.sec = p.sec ∧ (m p).2.mem.fields = p.mem.fields) : Stays m := by
  refine ⟨hk, fun p hp hc _ => ?_⟩
  obtain ⟨h1, h2, h3⟩ := h p
  refine ⟨hc.grows (hk p hp).1 h1 h2, h1, fun i f _ hf hf' => ?_⟩
  rw [h3] at hf'
  omega

theorem stays_newSection (n : Int) (d : GoString) : Stays (PFac.newSection n d : M (PFac F) SecRef) := by
  refine ⟨keeps_newSection n d, fun p hp hc _ => ?_⟩
  obtain ⟨i, m, j, hi, hm, hj, hjm⟩ := hc
  rw [PFac.newSection_eq n d hi]
  refine ⟨⟨i, _, _, hi, getElem?_modify' hm, rfl, by simp⟩, rfl, fun k f _ h1 h2 => ?_⟩
  change f < p.mem.fields.length at h2
  omega

theorem stays_setProxyOf (i : MsgRef) (f : FieldRef) : Stays (PFac.setProxyOf i f : M (PFac F) Unit) :=
  (keeps_setProxyOf i f).stays fun p => by
    unfold PFac.setProxyOf
    split <;> exact ⟨rfl, rfl, rfl⟩

theorem stays_setPadding (j : SecRef) (n : Int) :
    Stays (PFac.changeSection j (fun x => { x with padding := n }) : M (PFac F) Unit) :=
  (keeps_setPadding j n).stays fun _ => ⟨rfl, rfl, rfl⟩

section
variable [GoFloat F]

theorem stays_op (c : FacCfg) (op : Op F) (hop : ∀ path, op ≠ .newMessage path) : Stays (op.run c) := by
  cases op with
  | getMessage => exact (aloof_gets _).stays
  | newMessage p => exact absurd rfl (hop p)
  | newSection n d => exact (stays_newSection _ _).bind fun _ => (aloof_pure _).stays
  | initTableGroup a b d e g => exact (aloof_onFac _).stays.raise.bind fun _ => (aloof_pure _).stays
  | newField n t b p =>
    exact (show Stays (PFac.newField _ _ _ _) from (aloof_onFac _).stays.bind fun _ =>
      stays_putField _ _).raise.bind fun _ => (aloof_pure _).stays
  | newTemplateField n f x y l =>
    exact (show Stays (PFac.newTemplateField _ _ _ _ _) from
      (aloof_bitsLeft _).stays.bind fun _ => (aloof_crash _).stays.ite <| (aloof_crash _).stays.ite <|
        (aloof_onFac _).stays.bind fun _ => (aloof_setUt _).stays.bind fun _ =>
          stays_putField _ _).raise.bind fun _ => (aloof_pure _).stays
  | newPayloadField n s b =>
    exact (show Stays (PFac.newPayloadField _ _ _ _) from
      (aloof_gets _).stays.bind fun _ => (aloof_onFac _).stays.bind fun _ => (aloof_onFac _).stays.bind fun _ =>
        (aloof_onFac _).stays.bind fun _ => (aloof_gets _).stays.bind fun _ =>
          stays_putField _ _).raise.bind fun _ => (aloof_pure _).stays
  | padding l =>
    exact (show Stays (PFac.padding _) from
      (aloof_bitsLeft _).stays.bind fun k => (aloof_pure _).stays.ite <| (aloof_fail _).stays.ite <|
        aloof_theSection.stays.bind fun j => (stays_setPadding j k).bind fun _ =>
          (aloof_onFac _).wrapErr.stays.bind fun o =>
            match o with
            | none => (aloof_crash _).stays
            | some _ => (stays_putField _ _).bind fun _ => (aloof_pure _).stays).raise.bind
              fun _ => (aloof_pure _).stays
  | peekEditionNumber => exact (aloof_onFac _).stays.raise.bind fun _ => (aloof_pure _).stays
  | setProxyField m f =>
    cases m with
    | msg m =>
      cases f with
      | fld f =>
        cases f with
        | none => exact (aloof_crash _).stays
        | some f => exact (aloof_derefMsg m).stays.bind fun _ => (stays_setProxyOf _ _).bind fun _ => (aloof_pure _).stays
      | _ => exact (aloof_crash _).stays
    | _ => exact (aloof_fail _).stays
  | getProxyField m n =>
    cases m with
    | msg m =>
      refine (aloof_derefMsg m).stays.bind fun ⟨i, x⟩ => ?_
      show Stays (match mapGet x.proxyFields n.toText with
        | some f => pure (LVal.fld (some f))
        | none => raise (M.fail (.msg "no proxy field")))
      split
      · exact (aloof_pure _).stays
      · exact (aloof_fail _).stays.raise
    | _ => exact (aloof_fail _).stays
  | getField s n =>
    cases s with
    | sec i => exact (aloof_derefSec i).stays.bind fun _ => (aloof_gets _).stays
    | _ => exact (aloof_fail _).stays
  | getNumberOfFields s =>
    cases s with
    | sec i => exact (aloof_derefSec i).stays.bind fun _ => (aloof_pure _).stays
    | _ => exact (aloof_fail _).stays
  | value f =>
    cases f with
    | fld f => exact (aloof_derefFld f).stays.bind fun _ => (aloof_lift _).stays.bind fun _ => (aloof_pure _).stays
    | _ => exact (aloof_fail _).stays
  | isMissing f =>
    cases f with
    | fld f => exact (aloof_derefFld f).stays.bind fun _ => (aloof_pure _).stays
    | _ => exact (aloof_fail _).stays

theorem stays_run (c : FacCfg) {prog : Prog F} (h : prog.KeepsMessage) : Stays (prog.run c) := by
  induction h with
  | ret v => exact (aloof_pure v).stays
  | error e => exact (aloof_fail e).stays
  | call op k hop _ ih => exact (stays_op c op hop).bind ih
  | pcall f k _ _ ihf ihk =>
    refine ⟨keeps_run c _, fun p hp hc hn => ?_⟩
    have k1 := ihf.1 p hp
    have k2 := ihf.2 p hp hc
    simp only [Prog.run, M.handle] at hn ⊢
    rcases hr : f.run c p with ⟨o, p'⟩
    rw [hr] at k1 k2 hn
    have go : ∀ o', ¬ (Outcome.crashed ((k o').run c p').1) →
        Current p' → p'.message = p.message → Ready p' →
        (∀ i f, p.message = some i → p.mem.fields.length ≤ f → f < p'.mem.fields.length → Within p'.mem f i) →
        Current ((k o').run c p').2 ∧ ((k o').run c p').2.message = p.message ∧
        ∀ i f, p.message = some i → p.mem.fields.length ≤ f →
          f < ((k o').run c p').2.mem.fields.length → Within ((k o').run c p').2.mem f i := by
      intro o' hn' hc' hm' hp' hw
      obtain ⟨a, b, d⟩ := (ihk o').2 p' hp' hc' hn'
      refine ⟨a, b.trans hm', fun i g hi h1 h2 => ?_⟩
      rcases Nat.lt_or_ge g p'.mem.fields.length with hlt | hge
      · exact (hw i g hi h1 hlt).grows ((ihk o').1 p' hp').1
      · exact d i g (hm'.trans hi) hge h2
    cases o with
    | ok v =>
      obtain ⟨a, b, d⟩ := k2 (fun h => h)
      exact go (some v) hn a b (k1.2 (fun h => h)) d
    | err e =>
      obtain ⟨a, b, d⟩ := k2 (fun h => h)
      exact go none hn a b (k1.2 (fun h => h)) d
    | panic w => exact absurd trivial hn
    | diverge => exact absurd trivial hn

end

end Gobufr
