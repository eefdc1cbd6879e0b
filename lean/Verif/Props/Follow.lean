import Verif.Proofs.Follow
import Verif.Props.Only

/-!
# Walks of templates and data

C113: a walk of the expanded template, given the replication factors in the data, announces the data.
-/

namespace Gobufr
open Flat EncodeSpec TemplateSpec ParserSpec FollowSpec

variable {F : Type} {c : VisCfg}

/-- C113. The syntax tree of a template is its expansion, node by node. -/
theorem C113_tree (g : ChainGroup) (ht : NestedTables g.lookup) {ids : List ID} (hn : Nested ids) {fuel : Nat}
    {ts : List TNode} (he : expand g.lookup fuel (.exact ids) = .ok ts) (hs : straightL ts = true) :
    (∃ fuel', parse g.lookup fuel' ids = .ok (.base rootDescriptor (treeL ts))) ∧
      ∀ fuel' t, parse g.lookup fuel' ids = .ok t → t = .base rootDescriptor (treeL ts) := by
  have hx := (C28_faithful g.lookup (good_chain g) ht ids hn fuel ts he).2.2
  have hp := (parses_iff (good_chain g)).2 (expands_derives (good_chain g) hx hs)
  refine ⟨hp, fun fuel' t h => ?_⟩
  obtain ⟨ns, f', rfl, h1⟩ := parse_ok_iff.1 h
  rw [C35_unique g.lookup (good_chain g) ids ns (treeL ts) ⟨fuel', h⟩ hp]

/-- The cells of a subset are those that a walk sent the factors `ks` announces by the events `es`; the walk ends and
receives all of the factors. -/
def Announced [GoFloat F] (ts : List TNode) (cells : List (Option (NodeDesc × PackingInfo F × Val F))) (ks : List Nat)
    (es : List Event) : Prop :=
  walkTemplate ts ⟨[], some (ks.map Int.ofNat)⟩ = (.ok ⟨⟩, ⟨es, some []⟩) ∧
    cells.map (Option.map Prod.fst) = (es.flatMap announced).map fun a => some ⟨some a.2, false⟩

/-- The numbers in the cells that are announced as replication factors. -/
def factorNumbers [GoFloat F] (es : List Event) (cells : List (Option (NodeDesc × PackingInfo F × Val F))) : List (Option Nat) :=
  (ofFactors (es.flatMap announced) cells).map fun x => x.bind fun x => numberOf x.2.2

theorem announced_walk {ts : List TNode} {ks : List Nat} {es : List Event} (h : WalksL ts (some (ks.map Int.ofNat)) es (some [])) :
    ∃ es', walkTemplate ts ⟨[], some (ks.map Int.ofNat)⟩ = (.ok ⟨⟩, ⟨es', some []⟩) ∧
      es'.flatMap announced = es.flatMap announced :=
  ⟨_, (C30_walk_iff ts _ _ _).2 ⟨es, rfl, h⟩, by simp [announced]⟩

theorem announces_cells [GoFloat F] {as : List (Bool × Desc)} {is : List (Datum F)} {ks : List Nat} (h : Announces as is ks)
    (j : Nat) : (written is j).map (Option.map Prod.fst) = as.map (fun a => some ⟨some a.2, false⟩) ∧
      ((ofFactors as (written is j)).map fun x => x.bind fun x => numberOf x.2.2) =
        (ofFactors as is).map fun i => numberOf (i.vals.getD j .nil) := by
  constructor
  · have := congrArg (List.map some) h.descs
    simpa [written, Function.comp_def] using this
  · simp only [ofFactors, written, List.zip_map_right, List.map_filterMap, List.filterMap_map, Function.comp_def, Prod.map]
    congr 1
    funext p
    by_cases hp : p.1.1 = true <;> simp [hp]

theorem announces_first [GoFloat F] {as : List (Bool × Desc)} {is : List (Datum F)} {ks : List Nat} (h : Announces as is ks) :
    ((ofFactors as is).map fun i => numberOf (i.vals.getD 0 .nil)) = ks.map some := by
  rw [← h.factors]
  apply List.map_congr_left
  intro i hi
  obtain ⟨v, vs, e, -⟩ := h.alike i hi
  simp [e]

/-- **C113**, data that are not compressed or come as JSON: if the data section is decoded, then for every subset a walk of
the template that is sent the numbers in the cells of the replication factors ends, receives all of them, and announces the
cells of the subset, one by one and in order. -/
theorem C113_walk [GoFloat F] (hc : CfgOk c) (hu : ¬ (c.compressed = true ∧ c.inputType = .binary))
    (g : ChainGroup) (ht : NestedTables g.lookup) {ids : List ID} (hn : Nested ids) {fuel fuel' : Nat} {ts : List TNode}
    (he : expand g.lookup fuel (.exact ids) = .ok ts) (hs : straightL ts = true) {t : Ast}
    (hp : parse g.lookup fuel' ids = .ok t) (n : Nat) (b : Bool) (s s' : Vis F) (p' : Payload F)
    (h : Vis.decodeSubsets c t n { compressed := b } s = (.ok p', s')) :
    p'.subsets.length = n ∧ ∀ sub ∈ p'.subsets, ∃ ks es, Announced ts (reported sub) ks es ∧
      factorNumbers es (reported sub) = ks.map some := by
  have hx := (C28_faithful g.lookup (good_chain g) ht ids hn fuel ts he).2.2
  have ht := (C113_tree g ht hn he hs).2 _ _ hp
  subst ht
  obtain ⟨hsim, hns⟩ := expands_simple (ops_chain g) hx hs
  have ho : Only (F := F) true c (fun (_ : List Unit) _ => True) (Whatever none) none (visitL c (treeL ts)) (treeL ts) :=
    simpleL_only_of (takes_whatever (by simp)) (matches_plain hc hu) plainly_whatever true false _ (by simp) hsim
  have key : ∀ (n : Nat) (p0 : Payload F) (s : Vis F), Vis.decodeSubsets c (.base rootDescriptor (treeL ts)) n p0 s = (.ok p', s') →
      ∃ data : List (List (Datum F)), data.length = n ∧
        (∀ is ∈ data, ∃ (bits : List Unit) (y : Ctx), Coded (Whatever none) c.compatible {} (treeL ts) bits is y) ∧
        p'.subsets.map reported = p0.subsets.map reported ++ data.map fun is => written is 0 := by
    intro n
    induction n with
    | zero =>
      intro p0 s h
      cases h
      exact ⟨[], rfl, by simp, by simp⟩
    | succ n ih =>
      intro p0 s h
      obtain ⟨s1, root, e1, e2, e3⟩ := decodeSubsets_succ.1 h
      obtain ⟨b1, t1, is, y, ρ, f, -, q1, -, st, rep, q3, q4⟩ := root_only hc (by rw [if_neg hu]) (by simp) hns ho
        rootDescriptor (l := []) trivial e1
      obtain ⟨data, k1, k2, k4⟩ := ih _ s1 e3
      refine ⟨is :: data, by simp [k1], ?_, ?_⟩
      · intro x hx
        rcases List.mem_cons.1 hx with rfl | hx
        · exact ⟨_, y, q1⟩
        · exact k2 x hx
      · rw [k4, addSubsets_subsets, rep.cells, q4]
        simp only [subsetsOf, List.zipIdx_cons, List.zipIdx_nil, List.map_cons, List.map_nil, List.map_append,
          reported_cells rep.nodes, q3]
        simp
  obtain ⟨data, k1, k2, k3⟩ := key n _ s h
  have k3 : p'.subsets.map reported = data.map fun is => written is 0 := by simpa using k3
  refine ⟨by rw [← k1]; simpa using congrArg List.length k3, fun sub hsub => ?_⟩
  have hm : reported sub ∈ data.map fun is => written is 0 := k3 ▸ List.mem_map.2 ⟨sub, hsub, rfl⟩
  obtain ⟨is, hi, e⟩ := List.mem_map.1 hm
  obtain ⟨bits, y, hy⟩ := k2 is hi
  obtain ⟨ks, es, w1, w2⟩ := coded_walk hy ts rfl hs rfl
  obtain ⟨es', w3, w4⟩ := announced_walk w1
  obtain ⟨a1, a2⟩ := announces_cells w2 0
  refine ⟨ks, es', ⟨w3, ?_⟩, ?_⟩
  · rw [← e, w4]
    exact a1
  · unfold factorNumbers
    rw [← e, w4, a2]
    exact announces_first w2

/-- **C113**, compressed data: the same walk announces the cells of all subsets; the numbers are those in the cells of the
first subset (the others hold the same). -/
theorem C113_compressed [GoFloat F] (hc : CfgOk c) (hb : c.inputType = .binary) (hu : c.compressed = true) {k : Nat}
    (hk : c.nsubsets = k) (h0 : 0 < k)
    (g : ChainGroup) (ht : NestedTables g.lookup) {ids : List ID} (hn : Nested ids) {fuel fuel' : Nat} {ts : List TNode}
    (he : expand g.lookup fuel (.exact ids) = .ok ts) (hs : straightL ts = true) {t : Ast}
    (hp : parse g.lookup fuel' ids = .ok t) (b : Bool) (s s' : Vis F) (p' : Payload F)
    (h : Vis.decodeSubsets c t 1 { compressed := b } s = (.ok p', s')) :
    p'.subsets.length = k ∧ ∃ ks es, (∀ sub ∈ p'.subsets, Announced ts (reported sub) ks es) ∧
      ∀ sub, p'.subsets.head? = some sub → factorNumbers es (reported sub) = ks.map some := by
  have hx := (C28_faithful g.lookup (good_chain g) ht ids hn fuel ts he).2.2
  have ht := (C113_tree g ht hn he hs).2 _ _ hp
  subst ht
  obtain ⟨hsim, hns⟩ := expands_simple (ops_chain g) hx hs
  obtain ⟨fuel1, hunp⟩ := unpacker_compressed hc hb hu hk
  have ho : Only (F := F) true c (fun (_ : List Unit) _ => True) (Whatever (some k)) (some k) (visitL c (treeL ts)) (treeL ts) :=
    simpleL_only_of (takes_whatever (fun n e => by cases e; exact ⟨fuel1, hunp⟩)) (matches_compressed hunp) plainly_whatever true
      false _ (by simp) hsim
  obtain ⟨s1, root, e1, e2, e3⟩ := decodeSubsets_succ.1 h
  obtain ⟨bits, t, is, y, ρ, f, -, q1, q2, st, rep, q3, q4⟩ := root_only hc (k := some k)
    (by rw [if_pos ⟨hu, hb⟩, hk]; simp) (by simp; omega) hns ho rootDescriptor (l := []) trivial e1
  cases e3
  have hval : (Vis.addSubsets s'.heap root s'.cells { compressed := b }).subsets.map reported
      = (List.range k).map (written is) := by
    rw [addSubsets_subsets, rep.cells, q4]
    exact subsets_reported rep.nodes q3 k _
  obtain ⟨ks, es, w1, w2⟩ := coded_walk q1 ts rfl hs rfl
  obtain ⟨es', w3, w4⟩ := announced_walk w1
  refine ⟨by simpa using congrArg List.length hval, ks, es', fun sub hsub => ⟨w3, ?_⟩, fun sub hsub => ?_⟩
  · have hm : reported sub ∈ (List.range k).map (written is) := hval ▸ List.mem_map.2 ⟨sub, hsub, rfl⟩
    obtain ⟨j, -, e⟩ := List.mem_map.1 hm
    rw [← e, w4]
    exact (announces_cells w2 j).1
  · have e : reported sub = written is 0 := by
      have := congrArg List.head? hval
      obtain ⟨k, rfl⟩ : ∃ m, k = m + 1 := ⟨k - 1, by omega⟩
      rw [List.head?_map, hsub, List.range_succ_eq_map] at this
      simpa using this
    unfold factorNumbers
    rw [e, w4, (announces_cells w2 0).2]
    exact announces_first w2

namespace FollowExample
open PayloadExample

/-- 301001 = (001001, 102000, 031001, 012001, 205001) -/
def group : SingleGroup where
  b := { path := [], entries := [(1001, { (default : Bentry) with unit := .nonnegCode, nbits := 4 }),
    (12001, { (default : Bentry) with unit := .numeric, nbits := 8 }), (31001, { (default : Bentry) with unit := .nonnegCode, nbits := 8 })] }
  d := { path := [], entries := [(301001, ⟨str "S", [1001, 102000, 31001, 12001, 205001]⟩)] }

def chain : ChainGroup := ⟨[group]⟩

theorem nested_tables : NestedTables chain.lookup := by
  rintro id ms ⟨hF, d, e, h1, h2, rfl⟩
  have hF0 : ¬ ID.F id = 0 := by rw [hF]; decide
  have hF1 : ¬ ID.F id = 1 := by rw [hF]; decide
  have hF2 : ¬ ID.F id = 2 := by rw [hF]; decide
  have hl : chain.lookup id = match group.lookup id with
    | .ok d => .ok d
    | .err _ => .err (.msg "ID not found")
    | .panic w => .panic w
    | .diverge => .diverge := by
    simp only [chain, ChainGroup.lookup, List.map_cons, List.map_nil, chainLookup]
    rfl
  rw [hl] at h1
  simp only [SingleGroup.lookup, hF0, hF1, hF2, hF, if_false, if_true, TableD.lookup, group, mapGet] at h1
  by_cases ha : id = 301001
  · subst ha
    cases h1
    cases h2
    exact .plain (by decide) (.delayed (body := [12001, 205001]) (rest := []) (by decide) (by decide) (by decide) (by decide)
      (.plain (by decide) (.plain (by decide) .nil)) .nil)
  · exfalso
    have : ¬ (301001 : ID) = id := fun h => ha h.symm
    simp_all

/-- The sequence, and twice a number of ten bits. -/
def ids : List ID := [301001, 201130, 101002, 12001]

theorem nested : Nested ids :=
  .plain (by decide) (.plain (by decide) (.fixed (body := [12001]) (rest := []) (by decide) (by decide) (by decide)
    (.plain (by decide) .nil) .nil))

/-- The code 5, the factor 2, 7 `A`, 9 `B`, and 1, 2. -/
def input : Vis ToyFloat := { start [] with r := .bin ⟨Spec.natBits 4 5 ++ Spec.natBits 8 2 ++ Spec.natBits 8 7 ++ Spec.natBits 8 65 ++
  Spec.natBits 8 9 ++ Spec.natBits 8 66 ++ Spec.natBits 10 1 ++ Spec.natBits 10 2 ++ [true], 0⟩ }

/-- The same in two compressed subsets; only the first value differs, 5 and 6. -/
def inputC : Vis ToyFloat := { start [] with r := .bin ⟨Spec.natBits 4 5 ++ Spec.natBits 6 2 ++ Spec.natBits 2 0 ++ Spec.natBits 2 1 ++
  Spec.natBits 8 2 ++ Spec.natBits 6 0 ++ Spec.natBits 8 7 ++ Spec.natBits 6 0 ++ Spec.natBits 8 65 ++ Spec.natBits 6 0 ++
  Spec.natBits 8 9 ++ Spec.natBits 6 0 ++ Spec.natBits 8 66 ++ Spec.natBits 6 0 ++ Spec.natBits 10 1 ++ Spec.natBits 6 0 ++
  Spec.natBits 10 2 ++ Spec.natBits 6 0 ++ [true], 0⟩ }

/-- What is decoded. -/
def decoded (c : VisCfg) (s : Vis ToyFloat) (n : Nat) : Option (List (List (Option ID × Val ToyFloat))) :=
  match parse chain.lookup 20 ids with
  | .ok t => match Vis.decodeSubsets c t n { compressed := c.compressed } s with
    | (.ok p, _) => some (p.subsets.map fun sub => (reported sub).filterMap fun x => x.map fun x => (x.1.d.map (·.id), x.2.2))
    | _ => none
  | _ => none

end FollowExample

open FollowExample PayloadExample in
/-- Non-vacuity: the template of the example is expanded and parsed, it is `straight`, and data for it are decoded. -/
example : NestedTables chain.lookup ∧ Nested ids ∧ (∃ ts, expand chain.lookup 20 (.exact ids) = .ok ts ∧ straightL ts = true) ∧
    CfgOk cfg ∧ CfgOk cfgC ∧ cfgC.nsubsets = (2 : Nat) ∧
    decoded cfg input 1 = some [[(some 1001, .uint 5), (some 31001, .uint 2), (some 12001, .float ⟨7⟩),
      (some 205001, .bytes (str "A")), (some 12001, .float ⟨9⟩), (some 205001, .bytes (str "B")), (some 12001, .float ⟨1⟩),
      (some 12001, .float ⟨2⟩)]] ∧
    decoded cfgC inputC 1 = some [[(some 1001, .uint 5), (some 31001, .uint 2), (some 12001, .float ⟨7⟩),
      (some 205001, .bytes (str "A")), (some 12001, .float ⟨9⟩), (some 205001, .bytes (str "B")), (some 12001, .float ⟨1⟩),
      (some 12001, .float ⟨2⟩)], [(some 1001, .uint 6), (some 31001, .uint 2), (some 12001, .float ⟨7⟩),
      (some 205001, .bytes (str "A")), (some 12001, .float ⟨9⟩), (some 205001, .bytes (str "B")), (some 12001, .float ⟨1⟩),
      (some 12001, .float ⟨2⟩)]] := by
  refine ⟨nested_tables, nested, ⟨_, rfl, by decide +kernel⟩, cfg_ok, cfgC_ok, rfl, ?_, ?_⟩ <;> decide +kernel

end Gobufr
