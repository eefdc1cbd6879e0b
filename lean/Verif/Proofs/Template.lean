import Verif.Spec.Template

/-! Helper lemmas about template expansion. -/

namespace Gobufr.TemplateSpec

theorem at_mid (pre rest : List ID) (id : ID) (post : List ID) (n : Nat)
    (hn : pre.length < n) :
    IdSlice.at ⟨pre ++ (id :: rest) ++ post, n⟩ pre.length = .ok id := by
  simp [IdSlice.at, hn]

/-- The slice with `pre` before the current position, `l` to go and `post` behind its end. -/
def mid (pre l post : List ID) : IdSlice := ⟨pre ++ l ++ post, pre.length + l.length⟩

theorem exact_eq_mid (l : List ID) : IdSlice.exact l = mid [] l [] := by
  simp [IdSlice.exact, mid]

theorem mid_at (pre rest : List ID) (id : ID) (post : List ID) :
    (mid pre (id :: rest) post).at pre.length = .ok id := by
  rw [mid, at_mid]; simp

theorem mid_at1 (pre rest : List ID) (id f : ID) (post : List ID) :
    (mid pre (id :: f :: rest) post).at (pre.length + 1) = .ok f := by
  simp [mid, IdSlice.at]

theorem mid_next (pre rest : List ID) (id : ID) (post : List ID) :
    mid pre (id :: rest) post = mid (pre ++ [id]) rest post := by
  simp [mid]; omega

theorem mid_skip (pre a rest : List ID) (post : List ID) :
    mid pre (a ++ rest) post = mid (pre ++ a) rest post := by
  simp [mid]; omega

theorem mid_sub (pre body rest post : List ID) (x : Int) (lo : Nat) (hlo : lo = pre.length)
    (hx : x = body.length) :
    (mid pre (body ++ rest) post).sub lo x = .ok (mid [] body (rest ++ post)) := by
  subst hlo hx
  simp [mid, IdSlice.sub]

/-- One turn of the loop at a position `pre` of the slice. -/
theorem expandLoop_cons (lk : Lookup) (fuel : Nat) (pre rest post : List ID) (id : ID) :
    expandLoop lk (fuel + 1) (mid pre (id :: rest) post) pre.length =
      (lk id >>= fun d =>
        if d.id.F = 3 then do
          let e ← d.dentry
          let members ← expandLoop lk fuel (mid [] e.members []) 0
          let rest ← expandLoop lk fuel (mid (pre ++ [id]) rest post) (pre ++ [id]).length
          .ok (.mk d none members :: rest)
        else if d.id.F = 1 then
          if d.id.Y = 0 then do
            let fid ← (mid pre (id :: rest) post).at (pre.length + 1)
            let f ← lk fid
            let sub ← (mid pre (id :: rest) post).sub (pre.length + 2) d.id.X
            let members ← expandLoop lk fuel sub 0
            let rest ← expandLoop lk fuel (mid pre (id :: rest) post)
              (pre.length + 2 + d.id.X.toNat)
            .ok (.mk d (some f) members :: rest)
          else do
            let sub ← (mid pre (id :: rest) post).sub (pre.length + 1) d.id.X
            let members ← expandLoop lk fuel sub 0
            let rest ← expandLoop lk fuel (mid pre (id :: rest) post)
              (pre.length + 1 + d.id.X.toNat)
            .ok (.mk d none members :: rest)
        else do
          let rest ← expandLoop lk fuel (mid (pre ++ [id]) rest post) (pre ++ [id]).length
          .ok (.mk d none [] :: rest)) := by
  rw [expandLoop]
  rw [if_pos (by simp [mid]), mid_at]
  simp only [Outcome.bind_ok, exact_eq_mid, ← mid_next, List.length_append, List.length_cons,
    List.length_nil, Nat.zero_add]

theorem expandLoop_nil (lk : Lookup) (fuel : Nat) (pre post : List ID) :
    expandLoop lk (fuel + 1) (mid pre [] post) pre.length = .ok [] := by
  rw [expandLoop, if_neg (by simp [mid])]

theorem expandLoop_fixed (lk : Lookup) (hg : GoodLookup lk) (fuel : Nat)
    (pre body rest post : List ID) (id : ID) (hF : id.F = 1) (hY : id.Y ≠ 0)
    (hX : id.X = body.length) :
    expandLoop lk (fuel + 1) (mid pre (id :: (body ++ rest)) post) pre.length =
      (lk id >>= fun d => do
        let members ← expandLoop lk fuel (mid [] body (rest ++ post)) 0
        let rest ← expandLoop lk fuel (mid (pre ++ id :: body) rest post)
          (pre ++ id :: body).length
        .ok (.mk d none members :: rest)) := by
  rw [expandLoop_cons]
  rcases hg.total id with ⟨d, hd⟩ | ⟨e, he⟩
  · have hid := hg.id id d hd
    rw [hd]
    simp only [Outcome.bind_ok]
    rw [hid, if_neg (by rw [hF]; decide), if_pos hF, if_neg hY]
    rw [mid_next, mid_sub _ _ _ _ _ _ (by simp) hX]
    simp only [Outcome.bind_ok]
    congr 1
    funext ms
    rw [mid_skip, hX]
    simp [Nat.add_assoc, Nat.add_comm 1]
  · rw [he]; rfl

theorem expandLoop_delayed (lk : Lookup) (hg : GoodLookup lk) (fuel : Nat)
    (pre body rest post : List ID) (id f : ID) (hF : id.F = 1) (hY : id.Y = 0)
    (hX : id.X = body.length) :
    expandLoop lk (fuel + 1) (mid pre (id :: f :: (body ++ rest)) post) pre.length =
      (lk id >>= fun d => lk f >>= fun df => do
        let members ← expandLoop lk fuel (mid [] body (rest ++ post)) 0
        let rest ← expandLoop lk fuel (mid (pre ++ id :: f :: body) rest post)
          (pre ++ id :: f :: body).length
        .ok (.mk d (some df) members :: rest)) := by
  rw [expandLoop_cons]
  rcases hg.total id with ⟨d, hd⟩ | ⟨e, he⟩
  · have hid := hg.id id d hd
    rw [hd]
    simp only [Outcome.bind_ok]
    rw [hid, if_neg (by rw [hF]; decide), if_pos hF, if_pos hY]
    rw [mid_at1]
    simp only [Outcome.bind_ok]
    congr 1
    funext df
    rw [mid_next, mid_next, mid_sub _ _ _ _ _ _ (by simp) hX]
    simp only [Outcome.bind_ok]
    congr 1
    funext ms
    rw [mid_skip, hX]
    simp [Nat.add_assoc, Nat.add_comm 2]
  · rw [he]; rfl

theorem expandLoop_plain (lk : Lookup) (hg : GoodLookup lk) (fuel : Nat)
    (pre rest post : List ID) (id : ID) (hF : id.F ≠ 1) (hF3 : id.F ≠ 3) :
    expandLoop lk (fuel + 1) (mid pre (id :: rest) post) pre.length =
      (lk id >>= fun d => do
        let rest ← expandLoop lk fuel (mid (pre ++ [id]) rest post) (pre ++ [id]).length
        .ok (.mk d none [] :: rest)) := by
  rw [expandLoop_cons]
  rcases hg.total id with ⟨d, hd⟩ | ⟨e, he⟩
  · have hid := hg.id id d hd
    rw [hd]
    simp only [Outcome.bind_ok]
    rw [hid, if_neg hF3, if_neg hF]
  · rw [he]; rfl

theorem expandLoop_seq (lk : Lookup) (hg : GoodLookup lk) (fuel : Nat)
    (pre rest post : List ID) (id : ID) (hF3 : id.F = 3) :
    expandLoop lk (fuel + 1) (mid pre (id :: rest) post) pre.length =
      (lk id >>= fun d => do
        let e ← d.dentry
        let members ← expandLoop lk fuel (mid [] e.members []) 0
        let rest ← expandLoop lk fuel (mid (pre ++ [id]) rest post) (pre ++ [id]).length
        .ok (.mk d none members :: rest)) := by
  rw [expandLoop_cons]
  rcases hg.total id with ⟨d, hd⟩ | ⟨e, he⟩
  · have hid := hg.id id d hd
    rw [hd]
    simp only [Outcome.bind_ok]
    rw [hid, if_pos hF3]
  · rw [he]; rfl

/-- The specified expansion is computed, with enough fuel, wherever the template lies in the
slice. -/
theorem expand_complete (lk : Lookup) (hg : GoodLookup lk) {l : List ID} {ts : List TNode}
    (h : Expands lk l ts) : ∃ N, ∀ fuel, N ≤ fuel → ∀ pre post,
      expandLoop lk fuel (mid pre l post) pre.length = .ok ts := by
  have succ : ∀ {N fuel : Nat}, N + 1 ≤ fuel → ∃ k, fuel = k + 1 ∧ N ≤ k :=
    fun {N fuel} h => ⟨fuel - 1, by omega, by omega⟩
  induction h with
  | nil =>
    refine ⟨1, fun fuel hf pre post => ?_⟩
    obtain ⟨k, rfl, _⟩ := succ hf
    rw [expandLoop_nil]
  | @plain id d rest ts hlk hF1 hF3 _ ih =>
    obtain ⟨N, hN⟩ := ih
    refine ⟨N + 1, fun fuel hf pre post => ?_⟩
    obtain ⟨k, rfl, hk⟩ := succ hf
    rw [expandLoop_plain lk hg k pre rest post id hF1 hF3, hlk]
    simp only [Outcome.bind_ok, hN k hk]
  | @seq id d e rest ms ts hlk hF3 he _ _ ih1 ih2 =>
    obtain ⟨N1, hN1⟩ := ih1
    obtain ⟨N2, hN2⟩ := ih2
    refine ⟨max N1 N2 + 1, fun fuel hf pre post => ?_⟩
    obtain ⟨k, rfl, hk⟩ := succ hf
    have := hN1 k (by omega) [] []
    rw [List.length_nil] at this
    rw [expandLoop_seq lk hg k pre rest post id hF3, hlk]
    simp only [Outcome.bind_ok, Desc.dentry, he, this, hN2 k (by omega)]
  | @fixed id d body rest ms ts hlk hF hY hX _ _ ih1 ih2 =>
    obtain ⟨N1, hN1⟩ := ih1
    obtain ⟨N2, hN2⟩ := ih2
    refine ⟨max N1 N2 + 1, fun fuel hf pre post => ?_⟩
    obtain ⟨k, rfl, hk⟩ := succ hf
    have := hN1 k (by omega) [] (rest ++ post)
    rw [List.length_nil] at this
    rw [expandLoop_fixed lk hg k pre body rest post id hF hY hX, hlk]
    simp only [Outcome.bind_ok, this, hN2 k (by omega)]
  | @delayed id f d df body rest ms ts hlk hF hY hf hX _ _ ih1 ih2 =>
    obtain ⟨N1, hN1⟩ := ih1
    obtain ⟨N2, hN2⟩ := ih2
    refine ⟨max N1 N2 + 1, fun fuel hfu pre post => ?_⟩
    obtain ⟨k, rfl, hk⟩ := succ hfu
    have := hN1 k (by omega) [] (rest ++ post)
    rw [List.length_nil] at this
    rw [expandLoop_delayed lk hg k pre body rest post id f hF hY hX, hlk]
    simp only [Outcome.bind_ok, this, hf, hN2 k (by omega)]

/-- What a result of the loop means for the list `l` it worked on. -/
def Explained (lk : Lookup) (l : List ID) : Outcome (List TNode) → Prop
  | .ok ts => Expands lk l ts
  | .err e => ∃ id, Mentions lk l id ∧ lk id = .err e
  | .panic _ => False
  | .diverge => True

theorem Mentions.mono {lk : Lookup} {l l' : List ID} {id : ID} (h : Mentions lk l id)
    (hs : ∀ x ∈ l, x ∈ l') : Mentions lk l' id := by
  cases h with
  | here h => exact .here (hs _ h)
  | deep h1 h2 h3 => exact .deep (hs _ h1) h2 h3

theorem expand_explained (lk : Lookup) (hg : GoodLookup lk) (ht : NestedTables lk)
    (fuel : Nat) (l : List ID) (hl : Nested l) (pre post : List ID) :
    Explained lk l (expandLoop lk fuel (mid pre l post) pre.length) := by
  induction fuel generalizing l pre post with
  | zero => simp [expandLoop, Explained]
  | succ fuel ih =>
    cases hl with
    | nil => rw [expandLoop_nil]; exact .nil
    | @plain id rest hF1 hrest =>
      have hr := ih rest hrest (pre ++ [id]) post
      by_cases hF3 : id.F = 3
      · rw [expandLoop_seq lk hg fuel pre rest post id hF3]
        rcases hg.total id with ⟨d, hd⟩ | ⟨e, he⟩
        · obtain ⟨e, he⟩ := hg.seq id d hd hF3
          have hsm : SeqMembers lk id e.members := ⟨hF3, d, e, hd, he, rfl⟩
          have hm := ih e.members (ht id _ hsm) [] []
          rw [List.length_nil] at hm
          simp only [hd, Outcome.bind_ok, Desc.dentry, he]
          revert hm
          cases hml : expandLoop lk fuel (mid [] e.members []) 0 with
          | ok ms =>
            intro hm
            revert hr
            cases hrl : expandLoop lk fuel (mid (pre ++ [id]) rest post) (pre ++ [id]).length with
            | ok ts => exact fun hr => .seq hd hF3 he hm hr
            | err er =>
              rintro ⟨x, hx1, hx2⟩
              exact ⟨x, hx1.mono (by simp +contextual), hx2⟩
            | panic w => exact fun h => h
            | diverge => exact fun h => h
          | err er =>
            rintro ⟨x, hx1, hx2⟩
            exact ⟨x, .deep (by simp) hsm hx1, hx2⟩
          | panic w => exact fun h => h
          | diverge => exact fun h => h
        · rw [he]
          exact ⟨id, .here (by simp), he⟩
      · rw [expandLoop_plain lk hg fuel pre rest post id hF1 hF3]
        rcases hg.total id with ⟨d, hd⟩ | ⟨e, he⟩
        · simp only [hd, Outcome.bind_ok]
          revert hr
          cases hrl : expandLoop lk fuel (mid (pre ++ [id]) rest post) (pre ++ [id]).length with
          | ok ts => exact fun hr => .plain hd hF1 hF3 hr
          | err er =>
            rintro ⟨x, hx1, hx2⟩
            exact ⟨x, hx1.mono (by simp +contextual), hx2⟩
          | panic w => exact fun h => h
          | diverge => exact fun h => h
        · rw [he]
          exact ⟨id, .here (by simp), he⟩
    | @fixed id body rest hF hY hX hbody hrest =>
      have hr := ih rest hrest (pre ++ id :: body) post
      have hm := ih body hbody [] (rest ++ post)
      rw [List.length_nil] at hm
      rw [expandLoop_fixed lk hg fuel pre body rest post id hF hY hX]
      rcases hg.total id with ⟨d, hd⟩ | ⟨e, he⟩
      · simp only [hd, Outcome.bind_ok]
        revert hm
        cases hml : expandLoop lk fuel (mid [] body (rest ++ post)) 0 with
        | ok ms =>
          intro hm
          revert hr
          cases hrl : expandLoop lk fuel (mid (pre ++ id :: body) rest post)
              (pre ++ id :: body).length with
          | ok ts => exact fun hr => .fixed hd hF hY hX hm hr
          | err er =>
            rintro ⟨x, hx1, hx2⟩
            exact ⟨x, hx1.mono (by simp +contextual), hx2⟩
          | panic w => exact fun h => h
          | diverge => exact fun h => h
        | err er =>
          rintro ⟨x, hx1, hx2⟩
          exact ⟨x, hx1.mono (by simp +contextual), hx2⟩
        | panic w => exact fun h => h
        | diverge => exact fun h => h
      · rw [he]
        exact ⟨id, .here (by simp), he⟩
    | @delayed id f body rest hF hY hf3 hX hbody hrest =>
      have hr := ih rest hrest (pre ++ id :: f :: body) post
      have hm := ih body hbody [] (rest ++ post)
      rw [List.length_nil] at hm
      rw [expandLoop_delayed lk hg fuel pre body rest post id f hF hY hX]
      rcases hg.total id with ⟨d, hd⟩ | ⟨e, he⟩
      · rcases hg.total f with ⟨df, hdf⟩ | ⟨e, he⟩
        · simp only [hd, hdf, Outcome.bind_ok]
          revert hm
          cases hml : expandLoop lk fuel (mid [] body (rest ++ post)) 0 with
          | ok ms =>
            intro hm
            revert hr
            cases hrl : expandLoop lk fuel (mid (pre ++ id :: f :: body) rest post)
                (pre ++ id :: f :: body).length with
            | ok ts => exact fun hr => .delayed hd hF hY hdf hX hm hr
            | err er =>
              rintro ⟨x, hx1, hx2⟩
              exact ⟨x, hx1.mono (by simp +contextual), hx2⟩
            | panic w => exact fun h => h
            | diverge => exact fun h => h
          | err er =>
            rintro ⟨x, hx1, hx2⟩
            exact ⟨x, hx1.mono (by simp +contextual), hx2⟩
          | panic w => exact fun h => h
          | diverge => exact fun h => h
        · rw [hd, Outcome.bind_ok, he]
          exact ⟨f, .here (by simp), he⟩
      · rw [he]
        exact ⟨id, .here (by simp), he⟩

/-- The members of every sequence mentioned in an expanded list are expanded, in a smaller tree. -/
def treeSize : TNode → Nat
  | .mk _ _ ms => 1 + go ms
where go : List TNode → Nat
  | [] => 0
  | n :: ns => treeSize n + go ns

/-- Size of a list of trees. -/
abbrev treesSize := treeSize.go

theorem treesSize_cons (n : TNode) (ns : List TNode) :
    treesSize (n :: ns) = treeSize n + treesSize ns := by
  simp [treesSize, treeSize.go]

theorem treeSize_mk (d : Desc) (f : Option Desc) (ms : List TNode) :
    treeSize (.mk d f ms) = 1 + treesSize ms := by
  simp [treesSize, treeSize]

theorem seqMembers_F {lk : Lookup} {id : ID} {ms : List ID} (h : SeqMembers lk id ms) :
    id.F = 3 := h.1

theorem expands_members {lk : Lookup} {l : List ID} {ts : List TNode}
    (h : Expands lk l ts) (hl : Nested l) : ∀ id ∈ l, (∃ d, lk id = .ok d) ∧
      ∀ ms, SeqMembers lk id ms → ∃ us, Expands lk ms us ∧ treesSize us < treesSize ts := by
  induction h with
  | nil => simp
  | @plain id d rest ts hlk hF1 hF3 _ ih =>
    have hrest : Nested rest := by
      cases hl with
      | plain _ h => exact h
      | fixed h => exact absurd h hF1
      | delayed h => exact absurd h hF1
    intro x hx
    rcases List.mem_cons.mp hx with rfl | hx
    · exact ⟨⟨d, hlk⟩, fun ms hm => absurd hm.1 hF3⟩
    · refine ⟨(ih hrest x hx).1, fun ms hm => ?_⟩
      obtain ⟨us, h1, h2⟩ := (ih hrest x hx).2 ms hm
      exact ⟨us, h1, by rw [treesSize_cons]; omega⟩
  | @seq id d e rest ms ts hlk hF3 he hms _ ih1 ih2 =>
    have hrest : Nested rest := by
      cases hl with
      | plain _ h => exact h
      | fixed h => exact absurd (hF3.symm.trans h) (by decide)
      | delayed h => exact absurd (hF3.symm.trans h) (by decide)
    intro x hx
    rcases List.mem_cons.mp hx with rfl | hx
    · refine ⟨⟨d, hlk⟩, fun ms' hm => ?_⟩
      obtain ⟨_, d', e', h1, h2, h3⟩ := hm
      rw [hlk] at h1; cases h1
      rw [he] at h2; cases h2
      subst h3
      exact ⟨ms, hms, by rw [treesSize_cons, treeSize_mk]; omega⟩
    · refine ⟨(ih2 hrest x hx).1, fun ms hm => ?_⟩
      obtain ⟨us, h1, h2⟩ := (ih2 hrest x hx).2 ms hm
      exact ⟨us, h1, by rw [treesSize_cons]; omega⟩
  | @fixed id d body rest ms ts hlk hF hY hX _ _ ih1 ih2 =>
    have hn : Nested body ∧ Nested rest := by
      generalize hw : id :: (body ++ rest) = w at hl
      cases hl with
      | nil => cases hw
      | plain h _ => cases hw; exact absurd hF h
      | @fixed id' body' rest' _ _ hX' hb hr =>
        simp only [List.cons.injEq] at hw
        obtain ⟨rfl, hw⟩ := hw
        have := List.append_inj hw (by omega)
        rw [this.1, this.2]; exact ⟨hb, hr⟩
      | delayed _ h => rw [(List.cons.inj hw).1] at hY; exact absurd h hY
    intro x hx
    rcases List.mem_cons.mp hx with rfl | hx
    · exact ⟨⟨d, hlk⟩, fun ms hm => absurd (hF.symm.trans hm.1) (by decide)⟩
    · rcases List.mem_append.mp hx with hx | hx
      · refine ⟨(ih1 hn.1 x hx).1, fun ms hm => ?_⟩
        obtain ⟨us, h1, h2⟩ := (ih1 hn.1 x hx).2 ms hm
        exact ⟨us, h1, by rw [treesSize_cons, treeSize_mk]; omega⟩
      · refine ⟨(ih2 hn.2 x hx).1, fun ms hm => ?_⟩
        obtain ⟨us, h1, h2⟩ := (ih2 hn.2 x hx).2 ms hm
        exact ⟨us, h1, by rw [treesSize_cons]; omega⟩
  | @delayed id f d df body rest ms ts hlk hF hY hf hX _ _ ih1 ih2 =>
    have hn : f.F ≠ 3 ∧ Nested body ∧ Nested rest := by
      generalize hw : id :: f :: (body ++ rest) = w at hl
      cases hl with
      | nil => cases hw
      | plain h _ => cases hw; exact absurd hF h
      | fixed _ h => rw [(List.cons.inj hw).1] at hY; exact absurd hY h
      | @delayed id' f' body' rest' _ _ h3 hX' hb hr =>
        simp only [List.cons.injEq] at hw
        obtain ⟨rfl, rfl, hw⟩ := hw
        have := List.append_inj hw (by omega)
        rw [this.1, this.2]; exact ⟨h3, hb, hr⟩
    intro x hx
    rcases List.mem_cons.mp hx with rfl | hx
    · exact ⟨⟨d, hlk⟩, fun ms hm => absurd (hF.symm.trans hm.1) (by decide)⟩
    rcases List.mem_cons.mp hx with rfl | hx
    · exact ⟨⟨df, hf⟩, fun ms hm => absurd hm.1 hn.1⟩
    · rcases List.mem_append.mp hx with hx | hx
      · refine ⟨(ih1 hn.2.1 x hx).1, fun ms hm => ?_⟩
        obtain ⟨us, h1, h2⟩ := (ih1 hn.2.1 x hx).2 ms hm
        exact ⟨us, h1, by rw [treesSize_cons, treeSize_mk]; omega⟩
      · refine ⟨(ih2 hn.2.2 x hx).1, fun ms hm => ?_⟩
        obtain ⟨us, h1, h2⟩ := (ih2 hn.2.2 x hx).2 ms hm
        exact ⟨us, h1, by rw [treesSize_cons]; omega⟩

theorem expands_mentions {lk : Lookup} (ht : NestedTables lk) {l : List ID}
    {id : ID} (hm : Mentions lk l id) : ∀ {ts : List TNode},
    Expands lk l ts → Nested l → ∃ d, lk id = .ok d := by
  induction hm with
  | here h => exact fun h1 h2 => (expands_members h1 h2 _ h).1
  | deep h1 h2 _ ih =>
    intro ts h3 h4
    obtain ⟨us, h5, _⟩ := (expands_members h3 h4 _ h1).2 _ h2
    exact ih h5 (ht _ _ h2)

/-- With all descriptors known and the sequences expandable, a nested list has an expansion. -/
theorem expands_exists {lk : Lookup} {l : List ID} (hl : Nested l)
    (hk : ∀ id ∈ l, ∃ d, lk id = .ok d) (hg : GoodLookup lk)
    (hs : ∀ id ∈ l, ∀ ms, SeqMembers lk id ms → ∃ us, Expands lk ms us) :
    ∃ ts, Expands lk l ts := by
  induction hl with
  | nil => exact ⟨[], .nil⟩
  | @plain id rest hF1 _ ih =>
    obtain ⟨ts, hts⟩ := ih (fun x hx => hk x (by simp [hx])) (fun x hx => hs x (by simp [hx]))
    obtain ⟨d, hd⟩ := hk id (by simp)
    by_cases hF3 : id.F = 3
    · obtain ⟨e, he⟩ := hg.seq id d hd hF3
      obtain ⟨us, hus⟩ := hs id (by simp) e.members ⟨hF3, d, e, hd, he, rfl⟩
      exact ⟨_, .seq hd hF3 he hus hts⟩
    · exact ⟨_, .plain hd hF1 hF3 hts⟩
  | @fixed id body rest hF hY hX _ _ ih1 ih2 =>
    obtain ⟨ms, hms⟩ := ih1 (fun x hx => hk x (by simp [hx])) (fun x hx => hs x (by simp [hx]))
    obtain ⟨ts, hts⟩ := ih2 (fun x hx => hk x (by simp [hx])) (fun x hx => hs x (by simp [hx]))
    obtain ⟨d, hd⟩ := hk id (by simp)
    exact ⟨_, .fixed hd hF hY hX hms hts⟩
  | @delayed id f body rest hF hY _ hX _ _ ih1 ih2 =>
    obtain ⟨ms, hms⟩ := ih1 (fun x hx => hk x (by simp [hx])) (fun x hx => hs x (by simp [hx]))
    obtain ⟨ts, hts⟩ := ih2 (fun x hx => hk x (by simp [hx])) (fun x hx => hs x (by simp [hx]))
    obtain ⟨d, hd⟩ := hk id (by simp)
    obtain ⟨df, hdf⟩ := hk f (by simp)
    exact ⟨_, .delayed hd hF hY hdf hX hms hts⟩

theorem expands_exists_acyclic {lk : Lookup} (hg : GoodLookup lk) (ht : NestedTables lk)
    (rank : ID → Nat) (hr : ∀ s ms m, SeqMembers lk s ms → m ∈ ms → rank m < rank s) (R : Nat)
    (l : List ID) (hl : Nested l) (hR : ∀ id ∈ l, rank id < R)
    (hk : ∀ id, Mentions lk l id → ∃ d, lk id = .ok d) : ∃ ts, Expands lk l ts := by
  induction R generalizing l with
  | zero =>
    cases l with
    | nil => exact ⟨_, .nil⟩
    | cons a l => exact absurd (hR a (by simp)) (by omega)
  | succ R ih =>
    refine expands_exists hl (fun id h => hk id (.here h)) hg fun id h ms hm => ?_
    refine ih ms (ht id ms hm) (fun m hmm => ?_) (fun x hx => hk x (.deep h hm hx))
    have := hr id ms m hm hmm
    have := hR id h
    omega

/-! ### Termination on arbitrary slices -/

/-- The loop reaches the result `r` with any sufficient fuel. -/
def Ends (f : Nat → Outcome α) : Prop := ∃ r, r ≠ .diverge ∧ ∃ N, ∀ n, N ≤ n → f n = r

theorem Ends.const {o : Outcome α} (h : o ≠ .diverge) : Ends fun _ => o :=
  ⟨o, h, 0, fun _ _ => rfl⟩

theorem Ends.bind {f : Nat → Outcome α} {g : Nat → α → Outcome β} (hf : Ends f)
    (hg : ∀ a, Ends fun n => g n a) : Ends fun n => f n >>= g n := by
  obtain ⟨r, hr, N, hN⟩ := hf
  cases r with
  | ok a =>
    obtain ⟨r', hr', N', hN'⟩ := hg a
    exact ⟨r', hr', max N N', fun n hn => by simp only [hN n (by omega)]; exact hN' n (by omega)⟩
  | err e => exact ⟨.err e, by simp, N, fun n hn => by simp only [hN n hn]; rfl⟩
  | panic w => exact ⟨.panic w, by simp, N, fun n hn => by simp only [hN n hn]; rfl⟩
  | diverge => exact absurd rfl hr

/-- Like `bind`, with the value of the first known. -/
theorem Ends.bind' {o : Outcome α} {g : Nat → α → Outcome β} (ho : o ≠ .diverge)
    (hg : ∀ a, o = .ok a → Ends fun n => g n a) : Ends fun n => o >>= g n := by
  cases o with
  | ok a => exact hg a rfl
  | err e => exact .const (by simp)
  | panic w => exact .const (by simp)
  | diverge => exact absurd rfl ho

theorem Ends.shift {f : Nat → Outcome α} (h : Ends fun n => f (n + 1)) : Ends f := by
  obtain ⟨r, hr, N, hN⟩ := h
  refine ⟨r, hr, N + 1, fun n hn => ?_⟩
  have := hN (n - 1) (by omega)
  simp only [] at this
  rwa [show n - 1 + 1 = n by omega] at this

theorem at_ne_diverge (s : IdSlice) (i : Nat) : s.at i ≠ .diverge := by
  unfold IdSlice.at; repeat' split
  all_goals simp

theorem sub_ne_diverge (s : IdSlice) (i : Nat) (n : Int) : s.sub i n ≠ .diverge := by
  unfold IdSlice.sub; repeat' split
  all_goals simp

theorem dentry_ne_diverge (d : Desc) : d.dentry ≠ .diverge := by
  unfold Desc.dentry; split <;> simp

theorem sub_ok {s t : IdSlice} {i : Nat} {n : Int} (h : s.sub i n = .ok t) :
    t.arr = s.arr.drop i := by
  unfold IdSlice.sub at h
  repeat' split at h
  all_goals simp at h
  rw [← h]

theorem at_ok {s : IdSlice} {i : Nat} {id : ID} (h : s.at i = .ok id) :
    i < s.len ∧ i < s.arr.length ∧ id ∈ s.arr := by
  unfold IdSlice.at at h
  repeat' split at h
  all_goals simp at h
  rename_i h1 _ _ h2
  subst h
  exact ⟨h1, (List.getElem?_eq_some_iff.mp h2).1, List.mem_of_getElem? h2⟩

theorem expandLoop_ends {lk : Lookup} (hlk : ∀ id, lk id ≠ .diverge)
    (hid : ∀ id d, lk id = .ok d → d.id = id)
    (rank : ID → Nat) (hr : ∀ s ms m, SeqMembers lk s ms → m ∈ ms → rank m < rank s) (R : Nat) :
    ∀ (c : Nat) (s : IdSlice) (count : Nat), s.arr.length ≤ c →
      (∀ id ∈ s.arr, rank id < R) → Ends fun fuel => expandLoop lk fuel s count := by
  induction R with
  | zero =>
    intro c s count _ hR
    refine .shift ?_
    simp only [expandLoop]
    split
    · refine .bind' (at_ne_diverge _ _) fun id hat => ?_
      have := hR id (at_ok hat).2.2
      omega
    · exact .const (by simp)
  | succ R ihR =>
    intro c
    induction c with
    | zero =>
      intro s count hc hR
      refine .shift ?_
      simp only [expandLoop]
      split
      · refine .bind' (at_ne_diverge _ _) fun id hat => ?_
        have := (at_ok hat).2.1
        omega
      · exact .const (by simp)
    | succ c ihc =>
      intro s
      suffices h : ∀ m count, s.len - count ≤ m → s.arr.length ≤ c + 1 →
          (∀ id ∈ s.arr, rank id < R + 1) → Ends fun fuel => expandLoop lk fuel s count from
        fun count => h _ count (Nat.le_refl _)
      intro m
      induction m with
      | zero =>
        intro count hm _ _
        refine .shift ?_
        simp only [expandLoop]
        simp only [show ¬ count < s.len by omega, if_false]
        exact .const (by simp)
      | succ m ihm =>
        intro count hm hc hR
        refine .shift ?_
        simp only [expandLoop]
        split
        case isFalse => exact .const (by simp)
        rename_i hlt
        refine .bind' (at_ne_diverge _ _) fun id hat => ?_
        refine .bind' (hlk id) fun d hd => ?_
        have hidd := hid id d hd
        split
        · rename_i hF3
          refine .bind' (dentry_ne_diverge d) fun e he => ?_
          have hsm : SeqMembers lk id e.members := by
            refine ⟨hidd ▸ hF3, d, e, hd, ?_, rfl⟩
            unfold Desc.dentry at he
            split at he <;> simp_all
          refine .bind (ihR e.members.length _ 0 (by simp [IdSlice.exact]) fun x hx => ?_) fun _ => ?_
          · have h1 := hr id _ x hsm (by simpa [IdSlice.exact] using hx)
            have h2 := hR id (at_ok hat).2.2
            omega
          · exact .bind (ihm _ (by omega) hc hR) fun _ => .const (by simp)
        · split
          · split
            · refine .bind' (at_ne_diverge _ _) fun fid hfid => ?_
              refine .bind' (hlk fid) fun df hdf => ?_
              refine .bind' (sub_ne_diverge _ _ _) fun sub hsub => ?_
              have hsa := sub_ok hsub
              refine .bind (ihc sub 0 ?_ ?_) fun _ => ?_
              · rw [hsa, List.length_drop]; omega
              · intro x hx; rw [hsa] at hx; exact hR x (List.mem_of_mem_drop hx)
              · exact .bind (ihm _ (by omega) hc hR) fun _ => .const (by simp)
            · refine .bind' (sub_ne_diverge _ _ _) fun sub hsub => ?_
              have hsa := sub_ok hsub
              refine .bind (ihc sub 0 ?_ ?_) fun _ => ?_
              · rw [hsa, List.length_drop]; omega
              · intro x hx; rw [hsa] at hx; exact hR x (List.mem_of_mem_drop hx)
              · exact .bind (ihm _ (by omega) hc hR) fun _ => .const (by simp)
          · exact .bind (ihm _ (by omega) hc hR) fun _ => .const (by simp)

end Gobufr.TemplateSpec
