import Verif.Proofs.Api
import Verif.Proofs.Message

/-!
# The factory with pointers and the factory with values

The definition scripts of /repo do the same in `Verif.Model.Api` and in `Verif.Model.Script`.
-/

namespace Gobufr

variable {F : Type}

open Objects

/-! ## References -/

theorem derefAll_append {g : α → Option β} : ∀ {l l' : List α} {x x' : List β}, derefAll g l = some x →
    derefAll g l' = some x' → derefAll g (l ++ l') = some (x ++ x')
  | [], l', x, x', h, h' => by cases h; exact h'
  | i :: is, l', x, x', h, h' => by
    simp only [derefAll] at h
    split at h
    · rename_i a as ha has
      cases h
      simp [derefAll, ha, derefAll_append has h']
    · cases h

theorem derefAll_mono {g g' : α → Option β} : ∀ {l : List α} {x : List β}, derefAll g l = some x →
    (∀ i a, i ∈ l → g i = some a → g' i = some a) → derefAll g' l = some x
  | [], x, h, _ => h
  | i :: is, x, h, hg => by
    simp only [derefAll] at h
    split at h
    · rename_i a as ha has
      cases h
      simp [derefAll, hg i a (by simp) ha,
        derefAll_mono has fun j b hj hb => hg j b (List.mem_cons_of_mem _ hj) hb]
    · cases h

theorem derefProxies_mono {g g' : Nat → Option α} : ∀ {l : List (GoString × Nat)} {x : List (GoString × α)},
    derefProxies g l = some x → (∀ i a, g i = some a → g' i = some a) → derefProxies g' l = some x
  | [], x, h, _ => h
  | (k, i) :: is, x, h, hg => by
    simp only [derefProxies] at h
    split at h
    · rename_i a as ha has
      cases h
      simp [derefProxies, hg i a ha, derefProxies_mono has hg]
    · cases h

/-- Looking up a proxy by reference and by value. -/
theorem derefProxies_get {g : Nat → Option α} {k : GoString} : ∀ {l : List (GoString × Nat)}
    {x : List (GoString × α)}, derefProxies g l = some x →
    (mapGet l k = none ∧ mapGet x k = none) ∨
      ∃ i a, mapGet l k = some i ∧ g i = some a ∧ mapGet x k = some a
  | [], x, h => by cases h; exact .inl ⟨rfl, rfl⟩
  | (k', i) :: is, x, h => by
    simp only [derefProxies] at h
    split at h
    · rename_i a as ha has
      cases h
      by_cases hk : k' = k
      · exact .inr ⟨i, a, by simp [mapGet, hk], ha, by simp [mapGet, hk]⟩
      · simpa [mapGet, hk] using derefProxies_get (k := k) has
    · cases h

theorem lookup_prefix {l l' : List α} (h : l <+: l') {i : Nat} {x : α} (hx : l[i]? = some x) : l'[i]? = some x := by
  obtain ⟨t, rfl⟩ := h
  rw [List.getElem?_append_left (lookup_lt hx)]
  exact hx

theorem view_mono {fs fs' : List (Field F)} (h : fs <+: fs') {x : SecObj} {v : Section F}
    (hx : x.view fs = some v) : x.view fs' = some v := by
  unfold SecObj.view at *
  split at hx
  · cases hx
  · rename_i a ha
    rw [derefAll_mono ha fun i b _ hb => lookup_prefix h hb]
    exact hx

theorem view_start {fs : List (Field F)} {x : SecObj} {v : Section F} (hx : x.view fs = some v) :
    v.startByteIndex = x.startByteIndex := by
  unfold SecObj.view at hx
  split at hx
  · cases hx
  · cases hx; rfl

theorem view_add {fs : List (Field F)} {x : SecObj} {v : Section F} (hx : x.view fs = some v) (field : Field F) :
    SecObj.view (fs ++ [field]) { x with fields := x.fields ++ [fs.length] } = some (v.addField field) := by
  unfold SecObj.view at *
  split at hx
  · cases hx
  · rename_i a ha
    have h1 : derefAll ((fs ++ [field])[·]?) x.fields = some a :=
      derefAll_mono ha fun i b _ hb => lookup_prefix (List.prefix_append _ _) hb
    have h2 : derefAll ((fs ++ [field])[·]?) [fs.length] = some [field] := by simp [derefAll]
    cases hx
    rw [show derefAll ((fs ++ [field])[·]?) (x.fields ++ [fs.length]) = some (a ++ [field]) from
      derefAll_append h1 h2]
    rfl

theorem view_padding {fs : List (Field F)} {x : SecObj} {v : Section F} (hx : x.view fs = some v) (n : Int) :
    SecObj.view fs { x with padding := n } = some { v with padding := n } := by
  unfold SecObj.view at *
  split at hx
  · cases hx
  · rename_i a ha
    dsimp only
    rw [ha]
    cases hx
    rfl

/-! ## The relation of the two factories -/

/-- The message under construction, made of the objects behind those of `base`. -/
structure ObjSim (base : Mem F) (p : PFac F) (s : Fac F) (path : GoString) (xs : List SecObj) (x : SecObj)
    (ps : List (GoString × FieldRef)) (vs : List (Section F)) (v : Section F)
    (qs : List (GoString × Field F)) : Prop where
  r : p.r = s.r
  ut : p.ut = s.ut
  tg : p.tableGroup = s.tableGroup
  fields : base.fields <+: p.mem.fields
  sections : p.mem.sections = base.sections ++ xs ++ [x]
  sec : p.sec = some (base.sections.length + xs.length)
  messages : p.mem.messages = base.messages ++ [⟨path, List.range' base.sections.length (xs.length + 1), ps⟩]
  message : p.message = some base.messages.length
  views : derefAll (SecObj.view p.mem.fields) xs = some vs
  view : x.view p.mem.fields = some v
  proxies : derefProxies (p.mem.fields[·]?) ps = some qs
  value : s.message = some ⟨path, vs ++ [v], qs⟩

/-- The two factories hold the same message under construction. -/
def Like (base : Mem F) (p : PFac F) (s : Fac F) : Prop :=
  ∃ path xs x ps vs v qs, ObjSim base p s path xs x ps vs v qs

/-- The message under construction has no section yet. -/
structure Fresh (base : Mem F) (p : PFac F) (s : Fac F) (path : GoString) : Prop where
  r : p.r = s.r
  ut : p.ut = s.ut
  tg : p.tableGroup = s.tableGroup
  fields : p.mem.fields = base.fields
  sections : p.mem.sections = base.sections
  messages : p.mem.messages = base.messages ++ [⟨path, [], []⟩]
  message : p.message = some base.messages.length
  value : s.message = some ⟨path, [], []⟩

theorem Like.untouched {base : Mem F} {p : PFac F} {s : Fac F} (h : Like base p s) : Untouched base p.mem := by
  obtain ⟨path, xs, x, ps, vs, v, qs, h⟩ := h
  exact ⟨h.fields, by rw [h.sections, List.append_assoc]; exact List.prefix_append _ _,
    by rw [h.messages]; exact List.prefix_append _ _⟩

/-- Two calls come to the same. -/
def ObjRel (base : Mem F) (p : PFac F) (R : List (Field F) → α → β → Prop) (x : Outcome α × PFac F)
    (y : Outcome β × Fac F) : Prop :=
  p.mem.fields <+: x.2.mem.fields ∧ Untouched base x.2.mem ∧ x.2.r = y.2.r ∧
  match x.1, y.1 with
  | .ok a, .ok b => Like base x.2 y.2 ∧ R x.2.mem.fields a b
  | .err e, .err e' => e = e'
  | .panic w, .panic w' => w = w'
  | .diverge, .diverge => True
  | _, _ => False

theorem ObjRel.ok {base : Mem F} {p p' : PFac F} {s' : Fac F} {R : List (Field F) → α → β → Prop} {a : α} {b : β}
    (hp : p.mem.fields <+: p'.mem.fields) (h : Like base p' s') (hR : R p'.mem.fields a b) :
    ObjRel base p R (.ok a, p') (.ok b, s') := by
  refine ⟨hp, h.untouched, ?_, h, hR⟩
  obtain ⟨_, _, _, _, _, _, _, h⟩ := h
  exact h.r

theorem ObjRel.mono {base : Mem F} {p : PFac F} {R R' : List (Field F) → α → β → Prop} {x : Outcome α × PFac F}
    {y : Outcome β × Fac F} (h : ObjRel base p R x y) (hR : ∀ fs a b, p.mem.fields <+: fs → R fs a b → R' fs a b) :
    ObjRel base p R' x y := by
  obtain ⟨h1, h2, h3, h4⟩ := h
  refine ⟨h1, h2, h3, ?_⟩
  rcases x with ⟨o, q⟩
  rcases y with ⟨o', s⟩
  cases o <;> cases o' <;> first | exact h4 | exact ⟨h4.1, hR _ _ _ h1 h4.2⟩

theorem ObjRel.bind {base : Mem F} {p : PFac F} {s : Fac F} {R : List (Field F) → α → β → Prop}
    {R' : List (Field F) → γ → δ → Prop} {m : M (PFac F) α} {m' : M (Fac F) β} {f : α → M (PFac F) γ}
    {f' : β → M (Fac F) δ} (h : ObjRel base p R (m p) (m' s))
    (hf : ∀ a b p' s', Like base p' s' → p.mem.fields <+: p'.mem.fields → R p'.mem.fields a b →
      ObjRel base p' R' (f a p') (f' b s')) :
    ObjRel base p R' ((m >>= f) p) ((m' >>= f') s) := by
  rw [M.bind_apply, M.bind_apply]
  rcases hx : m p with ⟨o, q⟩
  rcases hy : m' s with ⟨o', t⟩
  rw [hx, hy] at h
  obtain ⟨h1, h2, h3, h4⟩ := h
  cases o <;> cases o' <;> first | exact h4.elim | skip
  · obtain ⟨k1, k2, k3, k4⟩ := hf _ _ q t h4.1 h1 h4.2
    exact ⟨h1.trans k1, k2, k3, k4⟩
  all_goals exact ⟨h1, h2, h3, h4⟩

theorem ObjRel.wrap {base : Mem F} {p : PFac F} {s : Fac F} {R : List (Field F) → α → β → Prop}
    {m : M (PFac F) α} {m' : M (Fac F) β} (w : String) (h : ObjRel base p R (m p) (m' s)) :
    ObjRel base p R (M.wrapErr w m p) (M.wrapErr w m' s) := by
  unfold M.wrapErr
  rcases hx : m p with ⟨o, q⟩
  rcases hy : m' s with ⟨o', t⟩
  rw [hx, hy] at h
  obtain ⟨h1, h2, h3, h4⟩ := h
  cases o <;> cases o' <;> first | exact h4.elim | exact ⟨h1, h2, h3, h4⟩ | exact ⟨h1, h2, h3, congrArg _ h4⟩

/-! ## Parts that do not look at the message -/

/-- The call neither looks at the message nor changes it. -/
def Blind (m : M (Fac F) α) : Prop := ∀ s t : Fac F, s.r = t.r → s.ut = t.ut → s.tableGroup = t.tableGroup →
  (m s).1 = (m t).1 ∧ (m s).2.r = (m t).2.r ∧ (m s).2.ut = (m t).2.ut ∧
    (m s).2.tableGroup = (m t).2.tableGroup ∧ (m s).2.message = s.message

theorem Blind.rel {m : M (Fac F) α} (hm : Blind m) {base : Mem F} {p : PFac F} {s : Fac F} (h : Like base p s) :
    ObjRel base p (fun _ a b => a = b) (PFac.onFac m p) (m s) := by
  obtain ⟨path, xs, x, ps, vs, v, qs, h⟩ := h
  obtain ⟨e1, e2, e3, e4, -⟩ := hm ⟨p.r, none, p.ut, p.tableGroup⟩ s h.r h.ut h.tg
  have e5 := (hm s s rfl rfl rfl).2.2.2.2
  have hl : Like base (PFac.onFac m p).2 (m s).2 :=
    ⟨path, xs, x, ps, vs, v, qs, e2, e3, e4, h.fields, h.sections, h.sec, h.messages, h.message, h.views,
      h.view, h.proxies, e5.trans h.value⟩
  refine ⟨List.prefix_refl _, hl.untouched, e2, ?_⟩
  have : (PFac.onFac m p).1 = (m s).1 := e1
  rw [this]
  cases (m s).1
  · exact ⟨hl, rfl⟩
  · rfl
  · rfl
  · trivial

theorem blind_onReader (m : M (Reader F) α) : Blind (Fac.onReader m) := by
  intro s t h1 h2 h3
  simp [Fac.onReader, M.zoom, h1, h2, h3]

theorem blind_parse (c : FacCfg) : Blind (Fac.parseTemplate c : M (Fac F) Ast) := by
  intro s t h1 h2 h3
  have : ∀ u : Fac F, (Fac.parseTemplate c u).2 = u := by intro u; unfold Fac.parseTemplate; split <;> rfl
  refine ⟨?_, by rw [this, this]; exact h1, by rw [this, this]; exact h2, by rw [this, this]; exact h3, by rw [this]⟩
  unfold Fac.parseTemplate Fac.lookup
  rw [h2, h3]
  split <;> rfl

theorem blind_lift (o : Outcome α) : Blind (M.lift o : M (Fac F) α) :=
  fun _ _ h1 h2 h3 => ⟨rfl, h1, h2, h3, rfl⟩

theorem blind_pure (a : α) : Blind (pure a : M (Fac F) α) := fun _ _ h1 h2 h3 => ⟨rfl, h1, h2, h3, rfl⟩

theorem Blind.bind {m : M (Fac F) α} {f : α → M (Fac F) β} (hm : Blind m) (hf : ∀ a, Blind (f a)) :
    Blind (m >>= f) := by
  intro s t h1 h2 h3
  have e := hm s t h1 h2 h3
  have e' := (hm s s rfl rfl rfl).2.2.2.2
  rw [M.bind_apply, M.bind_apply]
  rcases hx : m s with ⟨o, q⟩
  rcases hy : m t with ⟨o', u⟩
  rw [hx, hy] at e
  rw [hx] at e'
  obtain ⟨rfl, e1, e2, e3, -⟩ := e
  cases o with
  | ok a =>
    obtain ⟨k1, k2, k3, k4, k5⟩ := hf a q u e1 e2 e3
    exact ⟨k1, k2, k3, k4, k5.trans e'⟩
  | err e => exact ⟨rfl, e1, e2, e3, e'⟩
  | panic w => exact ⟨rfl, e1, e2, e3, e'⟩
  | diverge => exact ⟨rfl, e1, e2, e3, e'⟩

theorem blind_dump (c : FacCfg) (tree : Ast) : Blind (Fac.verboseDump c tree : M (Fac F) Unit) := by
  unfold Fac.verboseDump
  split
  · intro s t h1 h2 h3
    unfold M.ignoreErr M.lift
    cases (AstDump.visit tree ⟨[], []⟩).1 <;> exact ⟨rfl, h1, h2, h3, rfl⟩
  · exact blind_pure _

theorem blind_payload [GoFloat F] (c : FacCfg) (tree : Ast) (n : Int) (b : Bool) :
    Blind (Fac.decodePayload c tree n b : M (Fac F) (Payload F)) :=
  (blind_lift _).bind fun _ => by
    intro s t h1 h2 h3
    simp [M.zoom, h1, h2, h3]

theorem blind_tables (c : FacCfg) (a b d e g : Int) : Blind (Fac.initTableGroup c a b d e g : M (Fac F) Unit) := by
  intro s t h1 h2 h3
  unfold Fac.initTableGroup
  split <;> exact ⟨rfl, h1, h2, by first | rfl | exact h3, rfl⟩

/-! ## Calls of the factory -/

/-- The reference leads to the field. -/
def Shows (fs : List (Field F)) (f : FieldRef) (v : Field F) : Prop := fs[f]? = some v

theorem Shows.mono {fs fs' : List (Field F)} {f : FieldRef} {v : Field F} (h : Shows fs f v) (hp : fs <+: fs') :
    Shows fs' f v := lookup_prefix hp h

/-- Fields added to the last section on the side of values. -/
def valuePut (field : Field F) (proxy : Bool) : M (Fac F) (Field F) :=
  Fac.addField field >>= fun _ => if proxy then Fac.setProxyField field >>= fun _ => pure field else pure field

theorem valuePut_eq {s : Fac F} {path : GoString} {vs : List (Section F)} {v : Section F}
    {qs : List (GoString × Field F)} (h : s.message = some ⟨path, vs ++ [v], qs⟩) (field : Field F) (proxy : Bool) :
    valuePut field proxy s = (.ok field, { s with message := some ⟨path, vs ++ [v.addField field],
      if proxy then mapSet qs field.name field else qs⟩ }) := by
  unfold valuePut Fac.addField
  rw [M.bind_ok (changeSection_eq _ h rfl)]
  cases proxy with
  | false => rfl
  | true =>
    simp only [if_true]
    rw [M.bind_ok (setProxyField_eq field rfl)]
    rfl

theorem modify_at {α : Type} {g : α → α} {x : α} (l l' : List α) :
    (l ++ l' ++ [x]).modify (l.length + l'.length) g = l ++ l' ++ [g x] := by
  rw [← List.length_append]
  exact modify_last _

theorem putField_rel {base : Mem F} {p : PFac F} {s : Fac F} (h : Like base p s) (field : Field F) (proxy : Bool) :
    ObjRel base p Shows (PFac.putField field proxy p) (valuePut field proxy s) := by
  obtain ⟨path, xs, x, ps, vs, v, qs, h⟩ := h
  rw [valuePut_eq h.value]
  have pre : p.mem.fields <+: p.mem.fields ++ [field] := List.prefix_append _ _
  have hproxies : derefProxies ((p.mem.fields ++ [field])[·]?) ps = some qs :=
    derefProxies_mono h.proxies fun i a ha => lookup_prefix pre ha
  have hviews : derefAll (SecObj.view (p.mem.fields ++ [field])) xs = some vs :=
    derefAll_mono h.views fun i a _ ha => view_mono pre ha
  have hsec : (p.mem.putField (base.sections.length + xs.length) field).sections =
      base.sections ++ xs ++ [{ x with fields := x.fields ++ [p.mem.fields.length] }] := by
    show p.mem.sections.modify _ _ = _
    rw [h.sections, modify_at]
  cases proxy with
  | false =>
    rw [PFac.putField_plain field h.sec]
    refine ObjRel.ok pre ⟨path, xs, _, ps, vs, v.addField field, qs, h.r, h.ut, h.tg, h.fields.trans pre, hsec, h.sec,
      h.messages, h.message, hviews, view_add h.view field, hproxies, by simp⟩ ?_
    show (p.mem.fields ++ [field])[p.mem.fields.length]? = some field
    simp
  | true =>
    rw [PFac.putField_proxy field h.sec h.message]
    refine ObjRel.ok pre ⟨path, xs, _, mapSet ps field.name p.mem.fields.length, vs, v.addField field,
      mapSet qs field.name field, h.r, h.ut, h.tg, h.fields.trans pre, hsec, h.sec,
      ?_, h.message, hviews, view_add h.view field, ?_, by simp⟩ ?_
    · show p.mem.messages.modify _ _ = _
      rw [h.messages, modify_last]
    · show derefProxies ((p.mem.fields ++ [field])[·]?) (mapSet _ _ _) = _
      simp [mapSet, derefProxies, hproxies]
    · show (p.mem.fields ++ [field])[p.mem.fields.length]? = some field
      simp

theorem addField_rel {base : Mem F} {p : PFac F} {s : Fac F} (h : Like base p s) (field : Field F) :
    ObjRel base p (fun _ _ _ => True) (PFac.putField field false p) (Fac.addField field s) := by
  have k := putField_rel h field false
  obtain ⟨path, xs, x, ps, vs, v, qs, h⟩ := h
  rw [valuePut_eq h.value, PFac.putField_plain field h.sec] at k
  unfold Fac.addField
  rw [PFac.putField_plain field h.sec, changeSection_eq _ h.value rfl]
  exact ⟨k.1, k.2.1, k.2.2.1, k.2.2.2.1, trivial⟩

theorem section_lookup {base : Mem F} {p : PFac F} {s : Fac F} {path xs x ps vs v qs}
    (h : ObjSim base p s path xs x ps vs v qs) : p.mem.sections[base.sections.length + xs.length]? = some x := by
  rw [h.sections, ← List.length_append]
  simp

theorem bitsLeft_rel {base : Mem F} {p : PFac F} {s : Fac F} (h : Like base p s) (n : Nat) :
    ObjRel base p (fun _ a b => a = b) (PFac.bitsLeft n p) (Fac.bitsLeft n s) := by
  obtain ⟨path, xs, x, ps, vs, v, qs, h⟩ := h
  rw [bitsLeft_eq n h.value rfl]
  have : PFac.bitsLeft n p = (.ok ((n : Int) * 8 - (s.r.pos - v.startByteIndex * 8)), p) := by
    unfold PFac.bitsLeft
    rw [M.bind_ok (show PFac.theSection p = (.ok (base.sections.length + xs.length), p) by
      unfold PFac.theSection; rw [h.sec])]
    rw [M.gets_apply, section_lookup h, view_start h.view, h.r]
    rfl
  rw [this]
  exact ObjRel.ok (List.prefix_refl _) ⟨path, xs, x, ps, vs, v, qs, h⟩ rfl

theorem newSection_rel {base : Mem F} {p : PFac F} {s : Fac F} (h : Like base p s) (n : Int) (d : GoString) :
    ObjRel base p (fun _ _ _ => True) (PFac.newSection n d p) (Fac.newSection n d s) := by
  obtain ⟨path, xs, x, ps, vs, v, qs, h⟩ := h
  rw [newSection_eq n d h.value, PFac.newSection_eq n d h.message]
  refine ObjRel.ok (List.prefix_refl _) ⟨path, xs ++ [x], ⟨n, d, p.r.pos.tdiv 8, 0, []⟩, ps, vs ++ [v],
    ⟨n, d, s.r.pos.tdiv 8, 0, []⟩, qs, h.r, h.ut, h.tg, h.fields, ?_, ?_, ?_, h.message,
    derefAll_append h.views (by simp [derefAll, show x.view (p.mem.putSection _ n d (p.r.pos.tdiv 8)).fields = some v from h.view]),
    by rw [h.r]; rfl, h.proxies, rfl⟩ trivial
  · show p.mem.sections ++ _ = _
    rw [h.sections]
    simp
  · show some p.mem.sections.length = _
    rw [h.sections]
    simp
  · show p.mem.messages.modify _ _ = _
    rw [h.messages, modify_last, h.sections]
    congr 3
    rw [show (xs ++ [x]).length + 1 = (xs.length + 1) + 1 by simp, List.range'_concat (n := xs.length + 1)]
    simp

theorem newSection_fresh {base : Mem F} {p : PFac F} {s : Fac F} {path : GoString} (h : Fresh base p s path)
    (n : Int) (d : GoString) :
    ObjRel base p (fun _ _ _ => True) (PFac.newSection n d p) (Fac.newSection n d s) := by
  rw [newSection_eq n d h.value, PFac.newSection_eq n d h.message]
  refine ObjRel.ok (List.prefix_refl _) ⟨path, [], ⟨n, d, p.r.pos.tdiv 8, 0, []⟩, [], [],
    ⟨n, d, s.r.pos.tdiv 8, 0, []⟩, [], h.r, h.ut, h.tg, by show _ <+: p.mem.fields; rw [h.fields]; exact List.prefix_refl _,
    ?_, ?_, ?_, h.message, rfl, by rw [h.r]; rfl, rfl, rfl⟩ trivial
  · show p.mem.sections ++ _ = _
    rw [h.sections]
    simp
  · show some p.mem.sections.length = _
    rw [h.sections]
    simp
  · show p.mem.messages.modify _ _ = _
    rw [h.messages, modify_last, h.sections]
    simp

theorem setPadding_rel {base : Mem F} {p : PFac F} {s : Fac F} (h : Like base p s) (n : Int) :
    ObjRel base p (fun _ _ _ => True)
      ((PFac.theSection >>= fun j => PFac.changeSection j fun x => { x with padding := n }) p)
      (Fac.changeSection (fun x => { x with padding := n }) s) := by
  obtain ⟨path, xs, x, ps, vs, v, qs, h⟩ := h
  rw [changeSection_eq _ h.value rfl, M.bind_ok (show PFac.theSection p = (.ok (base.sections.length + xs.length), p) by
      unfold PFac.theSection; rw [h.sec])]
  refine ObjRel.ok (List.prefix_refl _) ⟨path, xs, { x with padding := n }, ps, vs, { v with padding := n }, qs, h.r,
    h.ut, h.tg, h.fields, ?_, h.sec, h.messages, h.message, h.views, view_padding h.view n, h.proxies, rfl⟩ trivial
  show p.mem.sections.modify _ _ = _
  rw [h.sections, modify_at]

theorem setUt_rel {base : Mem F} {p : PFac F} {s : Fac F} (h : Like base p s) (ut : Option UnexpandedTemplate) :
    ObjRel base p (fun _ _ _ => True) (M.modify (fun p => { p with ut := ut }) p)
      (M.modify (fun s => { s with ut := ut }) s) := by
  obtain ⟨path, xs, x, ps, vs, v, qs, h⟩ := h
  exact ObjRel.ok (List.prefix_refl _) ⟨path, xs, x, ps, vs, v, qs, h.r, rfl, h.tg, h.fields, h.sections, h.sec, h.messages,
    h.message, h.views, h.view, h.proxies, h.value⟩ trivial

theorem gets_rel {base : Mem F} {p : PFac F} {s : Fac F} (h : Like base p s) :
    ObjRel base p (fun _ a b => a = b) (M.gets (fun p : PFac F => p.r.pos) p) (M.gets (fun s : Fac F => s.r.pos) s) := by
  refine ObjRel.ok (List.prefix_refl _) h ?_
  obtain ⟨path, xs, x, ps, vs, v, qs, h⟩ := h
  exact congrArg Reader.pos h.r

theorem crash_rel {base : Mem F} {p : PFac F} {s : Fac F} (h : Like base p s) (w : String)
    {R : List (Field F) → α → β → Prop} :
    ObjRel base p R ((M.crash w : M (PFac F) α) p) ((M.crash w : M (Fac F) β) s) := by
  refine ⟨List.prefix_refl _, h.untouched, ?_, rfl⟩
  obtain ⟨path, xs, x, ps, vs, v, qs, h⟩ := h
  exact h.r

theorem fail_rel {base : Mem F} {p : PFac F} {s : Fac F} (h : Like base p s) (e : Err)
    {R : List (Field F) → α → β → Prop} :
    ObjRel base p R ((M.fail e : M (PFac F) α) p) ((M.fail e : M (Fac F) β) s) := by
  refine ⟨List.prefix_refl _, h.untouched, ?_, rfl⟩
  obtain ⟨path, xs, x, ps, vs, v, qs, h⟩ := h
  exact h.r

theorem pure_rel {base : Mem F} {p : PFac F} {s : Fac F} (h : Like base p s) {a : α} {b : β}
    {R : List (Field F) → α → β → Prop} (hR : R p.mem.fields a b) :
    ObjRel base p R ((pure a : M (PFac F) α) p) ((pure b : M (Fac F) β) s) :=
  ObjRel.ok (List.prefix_refl _) h hR

theorem newField_rel [GoFloat F] {base : Mem F} {p : PFac F} {s : Fac F} (h : Like base p s) (name : GoString)
    (t : DataType) (n : Int) (proxy : Bool) :
    ObjRel base p Shows (PFac.newField name t n proxy p) (Fac.newField name t n proxy s) := by
  refine ObjRel.bind ((blind_onReader _).rel h) fun a b p' s' h' _ hR => ?_
  subst hR
  have := putField_rel h' (Gobufr.newField name (.val a) n) proxy
  cases proxy <;> exact this

theorem newTemplateField_rel [GoFloat F] {base : Mem F} {p : PFac F} {s : Fac F} (h : Like base p s) (name : GoString)
    (f x y : Int) (n : Nat) :
    ObjRel base p Shows (PFac.newTemplateField name f x y n p) (Fac.newTemplateField name f x y n s) := by
  refine ObjRel.bind (bitsLeft_rel h n) fun k b p' s' h' _ hR => ?_
  subst hR
  dsimp only
  by_cases h0 : f + x + y = 0
  · rw [if_pos h0, if_pos h0]
    exact crash_rel h' _
  · rw [if_neg h0, if_neg h0]
    by_cases h1 : k.tdiv (f + x + y) < 0
    · rw [if_pos h1, if_pos h1]
      exact crash_rel h' _
    · rw [if_neg h1, if_neg h1]
      refine ObjRel.bind ((blind_onReader _).rel h') fun ids b p2 s2 h2 _ hR => ?_
      subst hR
      refine ObjRel.bind (setUt_rel h2 _) fun _ _ p3 s3 h3 _ _ => ?_
      exact putField_rel h3 _ true

theorem newPayloadField_rel [GoFloat F] (c : FacCfg) {base : Mem F} {p : PFac F} {s : Fac F} (h : Like base p s)
    (name : GoString) (n : Int) (compressed : Bool) :
    ObjRel base p Shows (PFac.newPayloadField c name n compressed p) (Fac.newPayloadField c name n compressed s) := by
  refine ObjRel.bind (gets_rel h) fun a b p1 s1 h1 _ hR => ?_
  subst hR
  refine ObjRel.bind ((blind_parse c).rel h1) fun tree b p2 s2 h2 _ hR => ?_
  subst hR
  refine ObjRel.bind ((blind_dump c tree).rel h2) fun _ _ p3 s3 h3 _ _ => ?_
  refine ObjRel.bind ((blind_payload c tree n compressed).rel h3) fun pay b p4 s4 h4 _ hR => ?_
  subst hR
  refine ObjRel.bind (gets_rel h4) fun e b p5 s5 h5 _ hR => ?_
  subst hR
  exact putField_rel h5 _ true

theorem padding_rel {base : Mem F} {p : PFac F} {s : Fac F} (h : Like base p s) (n : Nat) :
    ObjRel base p (fun _ _ _ => True) (PFac.padding n p) (Fac.padding n s) := by
  refine ObjRel.bind (bitsLeft_rel h n) fun k b p' s' h' _ hR => ?_
  subst hR
  by_cases h0 : k = 0
  · rw [if_pos h0, if_pos h0]
    exact pure_rel h' trivial
  · rw [if_neg h0, if_neg h0]
    by_cases h1 : k < 0
    · rw [if_pos h1, if_pos h1]
      exact fail_rel h' _
    · rw [if_neg h1, if_neg h1]
      rw [← M.bind_assoc]
      refine ObjRel.bind (setPadding_rel h' k) fun _ _ p2 s2 h2 _ _ => ?_
      refine ObjRel.bind (((blind_onReader _).rel h2).wrap _) fun o b p3 s3 h3 _ hR => ?_
      subst hR
      cases o with
      | none => exact crash_rel h3 _
      | some b =>
        exact ObjRel.bind (addField_rel h3 _) fun _ _ _ _ h4 _ _ => pure_rel h4 trivial

/-! ## Calls of scripts -/

section
variable [GoFloat F]

theorem run_bind (c : FacCfg) : ∀ (a : Prog F) (k : LVal F → Prog F),
    (a.bind k).run c = (a.run c >>= fun v => (k v).run c)
  | .ret v, k => rfl
  | .error e, k => rfl
  | .call op k', k => by
    simp only [Prog.bind, Prog.run, M.bind_assoc]
    congr 1
    funext v
    exact run_bind c (k' v) k
  | .pcall f k', k => by
    funext p
    simp only [Prog.bind, Prog.run]
    rw [M.bind_apply]
    simp only [M.handle]
    rcases f.run c p with ⟨o, p'⟩
    cases o with
    | ok v => simp only [run_bind c (k' (some v)) k, M.bind_apply]
    | err e => simp only [run_bind c (k' none) k, M.bind_apply]
    | panic w => rfl
    | diverge => rfl

/-- The value is the field. -/
def IsField (fs : List (Field F)) (a : LVal F) (b : Field F) : Prop := ∃ f, a = .fld (some f) ∧ Shows fs f b

omit [GoFloat F] in
theorem IsField.mono {fs fs' : List (Field F)} {a : LVal F} {b : Field F} (h : IsField fs a b) (hp : fs <+: fs') :
    IsField fs' a b := by
  obtain ⟨f, h1, h2⟩ := h
  exact ⟨f, h1, h2.mono hp⟩

/-- The declaration of a field as `Verif.Model.Script` writes it. -/
def declOf (d : Lua.Decl) : FieldDecl := ⟨d.1, (Lua.global (F := Unit) d.2.1).plain.toInteger, d.2.2.1, d.2.2.2⟩

omit [GoFloat F] in
theorem global_eq (name : String) :
    (Lua.global (F := F) name).plain.toInteger = (Lua.global (F := Unit) name).plain.toInteger := by
  unfold Lua.global
  cases Lua.dataTypes.lookup name <;> rfl

theorem luaField_rel {base : Mem F} {p : PFac F} {s : Fac F} (c : FacCfg) (h : Like base p s) (d : Lua.Decl)
    {R : List (Field F) → LVal F → β → Prop} {k : LVal F → Prog F} {m : Field F → M (Fac F) β}
    (hk : ∀ a b p' s', Like base p' s' → p.mem.fields <+: p'.mem.fields → IsField p'.mem.fields a b →
      ObjRel base p' R ((k a).run c p') (m b s')) :
    ObjRel base p R ((Lua.newField d k).run c p) ((Script.newField (declOf d) >>= m) s) := by
  refine ObjRel.bind (m := Op.run c _) (R := IsField) ?_ hk
  have := (newField_rel h (str d.1) (declOf d).dataType d.2.2.1 d.2.2.2).wrap "lua"
  have e : Op.run c (.newField (Lua.text d.1) (Lua.global d.2.1) (Lua.num d.2.2.1)
      (if d.2.2.2 then .lua (.bool true) else .nil) : Op F) =
      (raise (PFac.newField (str d.1) (declOf d).dataType d.2.2.1 d.2.2.2) >>= fun f => pure (.fld (some f))) := by
    show (raise (PFac.newField (str d.1) (Lua.global (F := F) d.2.1).plain.toInteger d.2.2.1 _) >>= _) = _
    rw [global_eq]
    obtain ⟨d1, d2, d3, d4⟩ := d
    cases d4 <;> rfl
  rw [e, show Script.newField (declOf d) s = ((Script.newField (declOf d) >>= pure) s) by rw [M.bind_pure]]
  exact ObjRel.bind this fun a b p' s' h' _ hR => pure_rel h' ⟨a, rfl, hR⟩

theorem luaFields_rel {base : Mem F} (c : FacCfg) {R : List (Field F) → LVal F → β → Prop} {k : Prog F}
    {m : M (Fac F) β} : ∀ (ds : List Lua.Decl) {p : PFac F} {s : Fac F}, Like base p s →
    (∀ p' s', Like base p' s' → p.mem.fields <+: p'.mem.fields → ObjRel base p' R (k.run c p') (m s')) →
    ObjRel base p R ((Lua.newFields ds k).run c p) ((Script.newFields (ds.map declOf) >>= fun _ => m) s)
  | [], p, s, h, hk => hk p s h (List.prefix_refl _)
  | d :: ds, p, s, h, hk => by
    show ObjRel base p R ((Lua.newField d fun _ => Lua.newFields ds k).run c p)
      (((Script.newField (declOf d) >>= fun _ => Script.newFields (ds.map declOf)) >>= fun _ => m) s)
    rw [M.bind_assoc]
    exact luaField_rel c h d fun a b p' s' h' hp _ => luaFields_rel c ds h' fun p2 s2 h2 hp2 =>
      hk p2 s2 h2 (hp.trans hp2)

theorem value_rel {base : Mem F} {p : PFac F} {s : Fac F} (c : FacCfg) (h : Like base p s) {a : LVal F} {b : Field F}
    (hab : IsField p.mem.fields a b) :
    ObjRel base p (fun _ x y => x = .lua y) ((Op.value a).run c p) (Script.value b s) := by
  obtain ⟨f, rfl, hf⟩ := hab
  have e : (Op.value (.fld (some f)) : Op F).run c p =
      ((M.lift (BitReader.wrapO "lua" b.luaValue) >>= fun v => pure (.lua v)) : M (PFac F) (LVal F)) p := by
    show (Op.derefFld (some f) >>= _) p = _
    rw [M.bind_ok (show Op.derefFld (some f) p = (.ok b, p) by
      unfold Op.derefFld; simp only; rw [show p.mem.fields[f]? = some b from hf])]
  rw [e]
  unfold Script.value
  rw [M.bind_apply, M.lift_apply, M.lift_apply]
  have hr : p.r = s.r := by obtain ⟨_, _, _, _, _, _, _, h⟩ := h; exact h.r
  cases BitReader.wrapO "lua" b.luaValue with
  | ok v => exact ObjRel.ok (List.prefix_refl _) h rfl
  | err e => exact ⟨List.prefix_refl _, h.untouched, hr, rfl⟩
  | panic w => exact ⟨List.prefix_refl _, h.untouched, hr, rfl⟩
  | diverge => exact ⟨List.prefix_refl _, h.untouched, hr, trivial⟩

theorem luaValue_rel {base : Mem F} {p : PFac F} {s : Fac F} (c : FacCfg) (h : Like base p s) {a : LVal F}
    {b : Field F} (hab : IsField p.mem.fields a b) {R : List (Field F) → LVal F → β → Prop} {k : LVal F → Prog F}
    {m : LuaVal F → M (Fac F) β}
    (hk : ∀ v p' s', Like base p' s' → p.mem.fields <+: p'.mem.fields → ObjRel base p' R ((k (.lua v)).run c p') (m v s')) :
    ObjRel base p R ((Prog.call (.value a) k).run c p) ((Script.value b >>= m) s) := by
  refine ObjRel.bind (m := Op.run c _) (value_rel c h hab) fun x y p' s' h' hp e => ?_
  subst e
  exact hk y p' s' h' hp

theorem luaProxy_rel {base : Mem F} {p : PFac F} {s : Fac F} (c : FacCfg) (h : Like base p s) (name : String)
    {R : List (Field F) → LVal F → β → Prop} {k : LVal F → Prog F} {m : LuaVal F → M (Fac F) β}
    (hk : ∀ v p' s', Like base p' s' → p.mem.fields <+: p'.mem.fields → ObjRel base p' R ((k (.lua v)).run c p') (m v s')) :
    ObjRel base p R ((Lua.proxyValue (.msg (some base.messages.length)) name k).run c p)
      ((Script.proxyValue name >>= m) s) := by
  have hl := h
  obtain ⟨path, xs, x, ps, vs, v, qs, h⟩ := h
  have hmsg : p.mem.messages[base.messages.length]? =
      some ⟨path, List.range' base.sections.length (xs.length + 1), ps⟩ := by rw [h.messages]; simp
  have hd : (Op.derefMsg (some base.messages.length) : M (PFac F) _) p =
      (.ok (base.messages.length, ⟨path, List.range' base.sections.length (xs.length + 1), ps⟩), p) := by
    unfold Op.derefMsg
    simp only
    rw [hmsg]
  unfold Script.proxyValue
  rw [M.bind_assoc, M.bind_ok (theMessage_eq h.value), M.bind_assoc]
  have hop : ∀ o : M (PFac F) (LVal F),
      (match mapGet ps (str name) with
        | some f => (pure (LVal.fld (some f)) : M (PFac F) (LVal F))
        | none => raise (M.fail (.msg "no proxy field"))) = o →
      (Op.getProxyField (.msg (some base.messages.length)) (Lua.text name) : Op F).run c p = o p := by
    intro o ho
    show (Op.derefMsg (some base.messages.length) >>= _) p = _
    rw [M.bind_ok hd, ← ho]
    rfl
  rcases derefProxies_get (k := str name) h.proxies with ⟨h1, h2⟩ | ⟨f, b, h1, h2, h3⟩
  · have e1 : Message.proxyField ⟨path, vs ++ [v], qs⟩ (str name) = .err (.msg "no proxy field") := by
      unfold Message.proxyField; simp only; rw [h2]
    rw [M.bind_err (show (M.lift (BitReader.wrapO "lua" (Message.proxyField ⟨path, vs ++ [v], qs⟩ (str name))) :
      M (Fac F) (Field F)) s = (.err (.wrap "lua" (.msg "no proxy field")), s) by rw [e1]; rfl)]
    have e2 := hop _ rfl
    rw [h1] at e2
    have : (Lua.proxyValue (.msg (some base.messages.length)) name k).run c p =
        (.err (.wrap "lua" (.msg "no proxy field")), p) := M.bind_err e2
    rw [this]
    exact ⟨List.prefix_refl _, hl.untouched, h.r, rfl⟩
  · have e1 : Message.proxyField ⟨path, vs ++ [v], qs⟩ (str name) = .ok b := by
      unfold Message.proxyField; simp only; rw [h3]
    rw [M.bind_ok (show (M.lift (BitReader.wrapO "lua" (Message.proxyField ⟨path, vs ++ [v], qs⟩ (str name))) :
      M (Fac F) (Field F)) s = (.ok b, s) by rw [e1]; rfl)]
    have e2 := hop _ rfl
    rw [h1] at e2
    have : (Lua.proxyValue (.msg (some base.messages.length)) name k).run c p =
        ((Prog.call (.value (.fld (some f))) k).run c) p := M.bind_ok e2
    rw [this]
    exact luaValue_rel c hl ⟨f, rfl, h2⟩ hk

theorem luaPadding_rel {base : Mem F} {p : PFac F} {s : Fac F} (c : FacCfg) (h : Like base p s) (v : LuaVal F)
    (w : LVal F) :
    ObjRel base p (fun _ _ _ => True) ((Prog.call (.padding (.lua v)) fun _ => .ret w).run c p) (Script.padding v s) := by
  refine ObjRel.bind (m := Op.run c _) (R := fun _ _ _ => True) (m' := raise (Fac.padding v.toUnsigned))
    ?_ fun _ _ p' s' h' _ _ => pure_rel h' trivial
  rw [show raise (Fac.padding v.toUnsigned) s = ((raise (Fac.padding v.toUnsigned) >>= pure) s) by rw [M.bind_pure]]
  exact ObjRel.bind ((padding_rel h _).wrap "lua") fun _ _ p' s' h' _ _ => pure_rel h' trivial

theorem luaSection_rel {base : Mem F} {p : PFac F} {s : Fac F} (c : FacCfg) (h : Like base p s) (n : Int) (d : String)
    {R : List (Field F) → LVal F → β → Prop} {k : LVal F → Prog F} {m : M (Fac F) β}
    (hk : ∀ v p' s', Like base p' s' → ObjRel base p' R ((k v).run c p') (m s')) :
    ObjRel base p R ((Prog.call (.newSection (Lua.num n) (Lua.text d)) k).run c p)
      ((Fac.newSection n (str d) >>= fun _ => m) s) := by
  refine ObjRel.bind (m := Op.run c _) (R := fun _ _ _ => True) ?_ fun v _ p' s' h' _ _ => hk v p' s' h'
  rw [show Fac.newSection n (str d) s = ((Fac.newSection n (str d) >>= pure) s) by rw [M.bind_pure]]
  exact ObjRel.bind (newSection_rel h n (str d)) fun _ _ p' s' h' _ _ => pure_rel h' trivial

theorem section0_rel {base : Mem F} {p : PFac F} {s : Fac F} {path : GoString} (c : FacCfg) (h : Fresh base p s path) :
    ObjRel base p (fun _ _ _ => True) ((Lua.section0 : Prog F).run c p) (Script.section0 s) := by
  refine ObjRel.bind (m := Op.run c _) (R := fun _ _ _ => True) ?_ fun v _ p' s' h' _ _ => ?_
  · rw [show Fac.newSection 0 (str "Indicator Section") s =
      ((Fac.newSection 0 (str "Indicator Section") >>= pure) s) by rw [M.bind_pure]]
    exact ObjRel.bind (newSection_fresh h 0 _) fun _ _ p' s' h' _ _ => pure_rel h' trivial
  · rw [← M.bind_pure (Script.newFields Script.fields0)]
    exact luaFields_rel c (k := .ret v) (m := pure ()) [("startSignature", "BYTES", 32, false),
      ("totalLengthInBytes", "UINT", 24, true), ("bufrEditionNumber", "UINT", 8, true)] h'
      fun _ _ h2 _ => pure_rel h2 trivial

theorem section1_rel {base : Mem F} {p : PFac F} {s : Fac F} (c : FacCfg) (h : Like base p s) (ds : List Lua.Decl) :
    ObjRel base p (fun _ _ _ => True) ((Lua.section1 ds : Prog F).run c p) (Script.section1 (ds.map declOf) s) :=
  luaSection_rel c h 1 _ fun _ _ _ h1 => luaField_rel c h1 _ fun _ _ _ _ h2 _ hab =>
    luaFields_rel c ds h2 fun _ _ h3 hp3 => luaValue_rel c h3 (hab.mono hp3) fun v _ _ h4 _ => luaPadding_rel c h4 v _

theorem section2_rel {base : Mem F} {p : PFac F} {s : Fac F} (c : FacCfg) (h : Like base p s) :
    ObjRel base p (fun _ _ _ => True) ((Lua.section2 : Prog F).run c p) (Script.section2 s) :=
  luaSection_rel c h 2 _ fun _ _ _ h1 => luaField_rel c h1 _ fun _ _ _ _ h2 _ hab =>
    luaField_rel c h2 _ fun _ _ _ _ h3 hp3 _ => luaValue_rel c h3 (hab.mono hp3) fun v p4 s4 h4 _ => by
      cases v with
      | num n =>
        show ObjRel base p4 _ ((Lua.newField _ _).run c p4) ((Script.newField _ >>= _) s4)
        exact luaField_rel c h4 ("localBits", "BINARY", (n - 4) * Lua.BITS_PER_BYTE, false)
          fun _ _ p5 s5 h5 _ _ => pure_rel h5 trivial
      | nil => exact fail_rel h4 _
      | float _ => exact fail_rel h4 _
      | bool _ => exact fail_rel h4 _
      | str _ => exact fail_rel h4 _
      | userdata => exact fail_rel h4 _

theorem section3_rel {base : Mem F} {p : PFac F} {s : Fac F} (c : FacCfg) (h : Like base p s) :
    ObjRel base p (fun _ _ _ => True) ((Lua.section3 : Prog F).run c p) (Script.section3 s) :=
  luaSection_rel c h 3 _ fun _ _ _ h1 => luaField_rel c h1 _ fun _ _ _ _ h2 _ hab =>
    luaFields_rel c _ h2 fun _ _ h3 hp3 => luaValue_rel c h3 (hab.mono hp3) fun v p4 s4 h4 hp4 =>
      ObjRel.bind (m := Op.run c _) (R := fun _ _ _ => True)
        (by
          rw [show raise (Fac.newTemplateField (str "unexpandedTemplate") 2 6 8 v.toUnsigned) s4 =
            ((raise (Fac.newTemplateField (str "unexpandedTemplate") 2 6 8 v.toUnsigned) >>= pure) s4) by
              rw [M.bind_pure]]
          exact ObjRel.bind ((newTemplateField_rel h4 _ 2 6 8 _).wrap "lua") fun _ _ p' s' h' _ _ => pure_rel h' trivial)
        fun _ _ _ _ h5 hp5 _ => luaValue_rel c h5 (hab.mono ((hp3.trans hp4).trans hp5)) fun v _ _ h6 _ => luaPadding_rel c h6 v _

theorem luaGetMessage_rel {base : Mem F} {p : PFac F} {s : Fac F} (c : FacCfg) (h : Like base p s)
    {R : List (Field F) → LVal F → β → Prop} {k : LVal F → Prog F} {y : Outcome β × Fac F}
    (hk : ObjRel base p R ((k (.msg (some base.messages.length))).run c p) y) :
    ObjRel base p R ((Prog.call .getMessage k).run c p) y := by
  obtain ⟨path, xs, x, ps, vs, v, qs, h⟩ := h
  have : (Prog.call .getMessage k).run c p = (k (.msg p.message)).run c p := rfl
  rw [this, h.message]
  exact hk

theorem section4_rel {base : Mem F} {p : PFac F} {s : Fac F} (c : FacCfg) (h : Like base p s) :
    ObjRel base p (fun _ _ _ => True) ((Lua.section4 : Prog F).run c p) (Script.section4 c s) :=
  luaSection_rel c h 4 _ fun _ _ _ h1 => luaField_rel c h1 _ fun _ _ _ _ h2 _ hab =>
    luaField_rel c h2 _ fun _ _ _ _ h3 hp3 _ => luaGetMessage_rel c h3 <| luaProxy_rel c h3 _ fun n _ s4 h4 hp4 =>
      luaGetMessage_rel c h4 <| luaProxy_rel c h4 _ fun z _ s5 h5 hp5 =>
      ObjRel.bind (m := Op.run c _) (R := fun _ _ _ => True)
        (by
          rw [show raise (Fac.newPayloadField c (str "payload") n.toInteger z.toBoolean) s5 =
            ((raise (Fac.newPayloadField c (str "payload") n.toInteger z.toBoolean) >>= pure) s5) by
              rw [M.bind_pure]]
          exact ObjRel.bind ((newPayloadField_rel c h5 _ _ _).wrap "lua") fun _ _ p' s' h' _ _ => pure_rel h' trivial)
        fun _ _ _ _ h6 hp6 _ => luaValue_rel c h6 (hab.mono (((hp3.trans hp4).trans hp5).trans hp6))
          fun v _ _ h7 _ => luaPadding_rel c h7 v _

theorem section5_rel {base : Mem F} {p : PFac F} {s : Fac F} (c : FacCfg) (h : Like base p s) :
    ObjRel base p (fun _ _ _ => True) ((Lua.section5 : Prog F).run c p) (Script.section5 s) :=
  luaSection_rel c h 5 _ fun v p1 s1 h1 => by
    rw [← M.bind_pure (Script.newFields [⟨"stopSignature", DataType.BYTES, 32, false⟩])]
    exact luaFields_rel c (k := .ret v) (m := pure ()) [("stopSignature", "BYTES", 32, false)] h1
      fun _ _ h2 _ => pure_rel h2 trivial

/-- A part of a script followed by the rest. -/
theorem ObjRel.then {base : Mem F} {p : PFac F} {s : Fac F} {c : FacCfg} {R : List (Field F) → LVal F → β → Prop}
    {a : Prog F} {k : LVal F → Prog F} {m : M (Fac F) α} {m' : M (Fac F) β}
    (h : ObjRel base p (fun _ _ _ => True) (a.run c p) (m s))
    (hk : ∀ v p' s', Like base p' s' → p.mem.fields <+: p'.mem.fields → ObjRel base p' R ((k v).run c p') (m' s')) :
    ObjRel base p R ((a.bind k).run c p) ((m >>= fun _ => m') s) := by
  rw [run_bind]
  exact ObjRel.bind h fun v _ p' s' h' hp _ => hk v p' s' h' hp

theorem optional_rel {base : Mem F} {p : PFac F} {s : Fac F} (c : FacCfg) (h : Like base p s) :
    ObjRel base p (fun _ _ _ => True)
      ((Lua.proxyValue (.msg (some base.messages.length)) "isSection2Presents" fun present =>
        if present.plain.toBoolean then Lua.section2 else .ret .nil : Prog F).run c p) (Script.optionalSection2 s) :=
  luaProxy_rel c h _ fun v p1 s1 h1 _ => by
    show ObjRel base p1 _ ((if v.toBoolean then Lua.section2 else .ret .nil : Prog F).run c p1)
      ((if v.toBoolean then Script.section2 else pure ()) s1)
    split
    · exact section2_rel c h1
    · exact pure_rel h1 trivial

omit [GoFloat F] in
theorem lookups_range : ∀ (xs pre : List SecObj) (fs : List (Field F)) (post : List SecObj) (vs : List (Section F)),
    derefAll (SecObj.view fs) xs = some vs →
    derefAll (Mem.section? ⟨fs, pre ++ xs ++ post, ms⟩) (List.range' pre.length xs.length) = some vs
  | [], _, _, _, _, h => h
  | x :: xs, pre, fs, post, vs, h => by
    simp only [derefAll] at h
    split at h
    · rename_i a as ha has
      cases h
      have k := lookups_range (ms := ms) xs (pre ++ [x]) fs post as has
      simp only [List.append_assoc, List.singleton_append, List.length_append, List.length_singleton] at k
      have e : Mem.section? ⟨fs, pre ++ (x :: (xs ++ post)), ms⟩ pre.length = some a := by
        unfold Mem.section?
        simp [ha]
      rw [List.cons_append] at k
      simp only [List.length_cons, List.range'_succ, derefAll, List.append_assoc, List.cons_append, e, k]
    · cases h

omit [GoFloat F] in
/-- The object of the message under construction holds the message of the factory with values. -/
theorem Like.message? {base : Mem F} {p : PFac F} {s : Fac F} (h : Like base p s) :
    p.mem.message? base.messages.length = s.message := by
  obtain ⟨path, xs, x, ps, vs, v, qs, h⟩ := h
  have hmsg : p.mem.messages[base.messages.length]? =
      some ⟨path, List.range' base.sections.length (xs.length + 1), ps⟩ := by rw [h.messages]; simp
  have hv : derefAll (SecObj.view p.mem.fields) (xs ++ [x]) = some (vs ++ [v]) :=
    derefAll_append h.views (by simp [derefAll, h.view])
  have hs := lookups_range (ms := p.mem.messages) (xs ++ [x]) base.sections p.mem.fields [] _ hv
  have e : (⟨p.mem.fields, base.sections ++ (xs ++ [x]) ++ [], p.mem.messages⟩ : Mem F) = p.mem := by
    rw [List.append_nil, ← List.append_assoc, ← h.sections]
  rw [e, List.length_append, List.length_singleton] at hs
  unfold Mem.message?
  rw [hmsg]
  dsimp only
  rw [hs, h.proxies, h.value]

/-- What a run of a definition script returns: the message under construction. -/
def Result (base : Mem F) (_ : List (Field F)) (a : LVal F) (_ : Message F) : Prop :=
  a = .msg (some base.messages.length)

theorem ObjRel.result {base : Mem F} {p : PFac F} {s : Fac F} (h : Like base p s) (c : FacCfg) :
    ObjRel base p (Result base) ((Prog.ret (.msg (some base.messages.length))).run c p) (Fac.theMessage s) := by
  have hl := h
  obtain ⟨path, xs, x, ps, vs, v, qs, h⟩ := h
  rw [theMessage_eq h.value]
  exact ObjRel.ok (List.prefix_refl _) hl rfl

theorem deserialise_rel {p : PFac F} {s : Fac F} (c : FacCfg) (hr : p.r = s.r) (hu : p.ut = s.ut)
    (ht : p.tableGroup = s.tableGroup) (ds : List Lua.Decl) :
    ObjRel p.mem p (Result p.mem) ((Lua.deserialise ds).run c p) (Script.deserialise c (ds.map declOf) s) := by
  have hfresh : Fresh p.mem
      { p with mem := { p.mem with messages := p.mem.messages ++ [{ inputPath := [] }] }
               message := some p.mem.messages.length }
      { s with message := some (newMessage []) } [] :=
    ⟨hr, hu, ht, rfl, rfl, rfl, rfl, rfl⟩
  change ObjRel p.mem p (Result p.mem)
    (Prog.run c (Lua.section0.bind _)
      { p with mem := { p.mem with messages := p.mem.messages ++ [{ inputPath := [] }] }
               message := some p.mem.messages.length })
    ((Script.section0 >>= _) { s with message := some (newMessage []) })
  refine (ObjRel.then (section0_rel c hfresh) fun _ p1 s1 h1 _ => ObjRel.then (section1_rel c h1 ds) fun _ p2 s2 h2 _ =>
    ObjRel.then (optional_rel c h2) fun _ p3 s3 h3 _ => ObjRel.then (section3_rel c h3) fun _ p4 s4 h4 _ => ?_)
  unfold Script.initTableGroup
  rw [M.bind_assoc]
  refine luaProxy_rel c h4 _ fun v1 p5 s5 h5 _ => ?_
  rw [M.bind_assoc]
  refine luaProxy_rel c h5 _ fun v2 p6 s6 h6 _ => ?_
  rw [M.bind_assoc]
  refine luaProxy_rel c h6 _ fun v3 p7 s7 h7 _ => ?_
  rw [M.bind_assoc]
  refine luaProxy_rel c h7 _ fun v4 p8 s8 h8 _ => ?_
  rw [M.bind_assoc]
  refine luaProxy_rel c h8 _ fun v5 p9 s9 h9 _ => ?_
  refine ObjRel.bind (m := Op.run c _) (R := fun _ _ _ => True) ?_ fun _ _ p10 s10 h10 _ _ =>
    ObjRel.then (section4_rel c h10) fun _ p11 s11 h11 _ => ObjRel.then (section5_rel c h11) fun _ p12 s12 h12 _ =>
      ObjRel.result h12 c
  rw [show raise (Fac.initTableGroup c v1.toInteger v2.toInteger v3.toInteger v4.toInteger v5.toInteger) s9 =
    ((raise (Fac.initTableGroup c v1.toInteger v2.toInteger v3.toInteger v4.toInteger v5.toInteger) >>= pure) s9) by
      rw [M.bind_pure]]
  exact ObjRel.bind (((blind_tables c _ _ _ _ _).rel h9).wrap "lua") fun _ _ p' s' h' _ _ => pure_rel h' trivial

omit [GoFloat F] in
/-- What the two factories have in common after a call that does not look at the message. -/
theorem Blind.same {m : M (Fac F) α} (hm : Blind m) {p : PFac F} {s : Fac F} (hr : p.r = s.r) (hu : p.ut = s.ut)
    (ht : p.tableGroup = s.tableGroup) : (PFac.onFac m p).1 = (m s).1 ∧ (PFac.onFac m p).2.r = (m s).2.r ∧
    (PFac.onFac m p).2.ut = (m s).2.ut ∧ (PFac.onFac m p).2.tableGroup = (m s).2.tableGroup ∧
    (PFac.onFac m p).2.mem = p.mem := by
  obtain ⟨e1, e2, e3, e4, -⟩ := hm ⟨p.r, none, p.ut, p.tableGroup⟩ s hr hu ht
  exact ⟨e1, e2, e3, e4, rfl⟩

/-- What `Delivers` says about a run. -/
def Runs (a : Mem F) (x : Outcome (LVal F) × PFac F) (y : Outcome (Message F) × Fac F) : Prop :=
  Untouched a x.2.mem ∧ x.2.r = y.2.r ∧
  match x.1, y.1 with
  | .ok v, .ok m => v = .msg (some a.messages.length) ∧ x.2.mem.message? a.messages.length = some m ∧
      x.2.mem.messages.length = a.messages.length + 1
  | .err e, .err e' => e = e'
  | .panic w, .panic w' => w = w'
  | .diverge, .diverge => True
  | _, _ => False

theorem deserialise_runs {p : PFac F} {s : Fac F} (c : FacCfg) (hr : p.r = s.r) (hu : p.ut = s.ut)
    (ht : p.tableGroup = s.tableGroup) (ds : List Lua.Decl) :
    Runs p.mem ((Lua.deserialise ds).run c p) (Script.deserialise c (ds.map declOf) s) := by
  have h := deserialise_rel c hr hu ht ds
  have hm : ∀ m s', Script.deserialise c (ds.map declOf) s = (.ok m, s') → s'.message = some m := by
    intro m s' he
    unfold Script.deserialise at he
    obtain ⟨_, _, -, he⟩ := M.bind_eq_ok.mp he
    obtain ⟨_, _, -, he⟩ := M.bind_eq_ok.mp he
    obtain ⟨_, _, -, he⟩ := M.bind_eq_ok.mp he
    obtain ⟨_, _, -, he⟩ := M.bind_eq_ok.mp he
    obtain ⟨_, _, -, he⟩ := M.bind_eq_ok.mp he
    obtain ⟨_, _, -, he⟩ := M.bind_eq_ok.mp he
    obtain ⟨_, _, -, he⟩ := M.bind_eq_ok.mp he
    obtain ⟨_, _, -, he⟩ := M.bind_eq_ok.mp he
    unfold Fac.theMessage at he
    split at he
    · rename_i hq
      cases he
      exact hq
    · cases he
  rcases hx : (Lua.deserialise ds).run c p with ⟨o, p'⟩
  rcases hy : Script.deserialise c (ds.map declOf) s with ⟨o', s'⟩
  rw [hx, hy] at h
  obtain ⟨-, h2, h3, h4⟩ := h
  refine ⟨h2, h3, ?_⟩
  cases o <;> cases o' <;> first | exact h4.elim | exact h4 | skip
  refine ⟨h4.2, h4.1.message?.trans (hm _ _ hy), ?_⟩
  obtain ⟨path, xs, x, ps, vs, v, qs, h⟩ := h4.1
  rw [h.messages, List.length_append, List.length_singleton]

theorem boot_runs {p : PFac F} {s : Fac F} (c : FacCfg) (hr : p.r = s.r) (hu : p.ut = s.ut)
    (ht : p.tableGroup = s.tableGroup) : Runs p.mem ((Lua.boot : Prog F).run c p) (Script.boot c s) := by
  obtain ⟨e1, e2, e3, e4, e5⟩ := (blind_onReader (Reader.peekUint 7 8 : M (Reader F) Nat)).same hr hu ht
  change Runs p.mem (((raise (PFac.onFac Fac.peekEditionNumber) >>= fun n => pure (LVal.lua (.num n))) >>= _) p)
    ((raise Fac.peekEditionNumber >>= _) s)
  rw [M.bind_assoc, M.bind_apply, M.bind_apply]
  unfold raise M.wrapErr
  change (PFac.onFac Fac.peekEditionNumber p).1 = (Fac.peekEditionNumber s).1 at e1
  change (PFac.onFac Fac.peekEditionNumber p).2.r = (Fac.peekEditionNumber s).2.r at e2
  change (PFac.onFac Fac.peekEditionNumber p).2.ut = (Fac.peekEditionNumber s).2.ut at e3
  change (PFac.onFac Fac.peekEditionNumber p).2.tableGroup = (Fac.peekEditionNumber s).2.tableGroup at e4
  change (PFac.onFac Fac.peekEditionNumber p).2.mem = p.mem at e5
  rcases hx : PFac.onFac Fac.peekEditionNumber p with ⟨o, p'⟩
  rcases hy : (Fac.peekEditionNumber s) with ⟨o', s'⟩
  rw [hx, hy] at e1 e2 e3 e4
  rw [hx] at e5
  dsimp only at e1 e2 e3 e4 e5
  subst e1
  have un : Untouched p.mem p'.mem := by rw [e5]; exact ⟨List.prefix_refl _, List.prefix_refl _, List.prefix_refl _⟩
  cases o with
  | ok n =>
    change Runs p.mem (Prog.run c (if (n : Int) = 4 then _ else if (n : Int) = 3 then _ else _) p')
      ((if n = 4 then _ else if n = 3 then _ else _ : M (Fac F) _) s')
    have i4 : ((n : Int) = 4) = (n = 4) := by simp only [eq_iff_iff]; omega
    have i3 : ((n : Int) = 3) = (n = 3) := by simp only [eq_iff_iff]; omega
    simp only [i4, i3]
    by_cases h4 : n = 4
    · rw [if_pos h4, if_pos h4, ← e5]
      exact deserialise_runs c e2 e3 e4 _
    · rw [if_neg h4, if_neg h4]
      by_cases h3 : n = 3
      · rw [if_pos h3, if_pos h3, ← e5]
        exact deserialise_runs c e2 e3 e4 _
      · rw [if_neg h3, if_neg h3]
        exact ⟨un, e2, rfl⟩
  | err e => exact ⟨un, e2, rfl⟩
  | panic w => exact ⟨un, e2, rfl⟩
  | diverge => exact ⟨un, e2, trivial⟩

/-- A run of the definition scripts with objects does what the run with values does. -/
theorem runScript_delivers {p : PFac F} {s : Fac F} (c : FacCfg) (hr : p.r = s.r) (hu : p.ut = s.ut)
    (ht : p.tableGroup = s.tableGroup) :
    Untouched p.mem (PFac.runScript c Lua.boot p).2.mem ∧
    (PFac.runScript c Lua.boot p).2.r = (Runtime.run c s).2.r ∧
    Delivers p.mem (PFac.runScript c Lua.boot p).2.mem (PFac.runScript c Lua.boot p).1 (Runtime.run c s).1 := by
  obtain ⟨e1, e2, e3, e4, e5⟩ := (blind_onReader (fun r : Reader F => Fac.seekLoop (Fac.left r + 1) r)).same hr hu ht
  change (PFac.onFac Fac.seekStartSignature p).1 = (Fac.seekStartSignature s).1 at e1
  change (PFac.onFac Fac.seekStartSignature p).2.r = (Fac.seekStartSignature s).2.r at e2
  change (PFac.onFac Fac.seekStartSignature p).2.ut = (Fac.seekStartSignature s).2.ut at e3
  change (PFac.onFac Fac.seekStartSignature p).2.tableGroup = (Fac.seekStartSignature s).2.tableGroup at e4
  change (PFac.onFac Fac.seekStartSignature p).2.mem = p.mem at e5
  unfold PFac.runScript Runtime.run
  rw [M.bind_apply, M.bind_apply]
  rcases hx : PFac.onFac Fac.seekStartSignature p with ⟨o, p'⟩
  rcases hy : (Fac.seekStartSignature s) with ⟨o', s'⟩
  rw [hx, hy] at e1 e2 e3 e4
  rw [hx] at e5
  dsimp only at e1 e2 e3 e4 e5
  subst e1
  have un : Untouched p.mem p'.mem := by rw [e5]; exact ⟨List.prefix_refl _, List.prefix_refl _, List.prefix_refl _⟩
  cases o with
  | err e => exact ⟨un, e2, rfl⟩
  | panic w => exact ⟨un, e2, rfl⟩
  | diverge => exact ⟨un, e2, trivial⟩
  | ok _ =>
    have h := boot_runs c e2 e3 e4
    rw [e5] at h
    dsimp only
    rw [M.bind_apply]
    rcases hb : (Lua.boot : Prog F).run c p' with ⟨o, q⟩
    rcases hc : Script.boot c s' with ⟨o', t⟩
    rw [hb, hc] at h
    obtain ⟨h1, h2, h3⟩ := h
    cases o <;> cases o' <;> first | exact h3.elim | skip
    · obtain ⟨rfl, h3⟩ := h3
      exact ⟨h1, h2, rfl, h3⟩
    · exact ⟨h1, h2, h3⟩
    · exact ⟨h1, h2, h3⟩
    · exact ⟨h1, h2, h3⟩

end

end Gobufr
