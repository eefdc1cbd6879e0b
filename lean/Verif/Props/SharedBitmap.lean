import Verif.Props.PayloadBitmap
import Verif.Props.PayloadTree

/-!
# Properties of bitmaps in compressed data: C109
-/

namespace Gobufr

open Flat

variable {F : Type} {c : VisCfg}

/-- The columns from `b.index0` on, up to but not including `b.index1`, hold the numbers `bits` in subset `k`. -/
structure SubsetBits [GoFloat F] (cols : List (Column F)) (b : Bitmap) (k : Nat) (bits : List Nat) : Prop where
  length : b.index1 = b.index0 + bits.length
  bit : ∀ (j : Nat) (n : Nat), bits[j]? = some n → ∃ (i : Nat) (col : Column F) (v : Val F),
    b.index0 + j = i ∧ cols[i]? = some col ∧ col.vals[k]? = some v ∧ numberOf v = some n

/-- **C109**.  Compressed data with an assessment are decoded only if the subsets agree on its bitmap. -/
def C109_statement : Prop :=
  ∀ (F : Type) (_ : GoFloat F) (c : VisCfg), CfgOk c → c.compressed = true ∧ c.inputType = .binary →
    ∀ (d : Desc) (bm : Ast) (as ms : List Ast), noBase (.assessment d bm as ms) = true → ∀ s s' : Vis F, WellFormed c s →
      Vis.visit c (.assessment d bm as ms) s = (.ok (), s') → ∀ b, currentBitmap s' = some b →
        ∀ k k' bits bits', SubsetBits (tableOf s').cols b k bits → SubsetBits (tableOf s').cols b k' bits' → bits = bits'

theorem SubsetBits.unique [GoFloat F] {cols : List (Column F)} {b : Bitmap} {k k' : Nat} {bits bits' : List Nat}
    (hk : SubsetBits cols b k bits) (hk' : SubsetBits cols b k' bits')
    (hsame : ∀ (i : Nat) (col : Column F), b.index0 ≤ i → i < b.index1 → cols[i]? = some col → ∀ v ∈ col.vals, ∀ w ∈ col.vals, v = w) :
    bits = bits' := by
  have hlen : bits.length = bits'.length := by
    have := hk.length
    have := hk'.length
    omega
  refine List.ext_getElem hlen fun j h1 h2 => ?_
  obtain ⟨i, col, v, hi, hc, hv, hn⟩ := hk.bit j _ (List.getElem?_eq_getElem h1)
  obtain ⟨i', col', v', hi', hc', hv', hn'⟩ := hk'.bit j _ (List.getElem?_eq_getElem h2)
  have hii : i = i' := by omega
  subst hii
  have hcc : col = col' := Option.some.inj (hc.symm.trans hc')
  subst hcc
  have hl := hk.length
  have : v = v' := hsame i col (by omega) (by omega) hc v (List.mem_of_getElem? hv) v' (List.mem_of_getElem? hv')
  subst this
  exact Option.some.inj (hn.symm.trans hn')

/-- C109 (part).  The elements that an assessment refers to, in all subsets, are those selected by the bits of the
first subset.  If all subsets have the same values in the columns of the bitmap, these are the elements that every
subset selects.  Missing: that the subsets disagree is not noticed (`C109_violates`). -/
theorem C109_partial [GoFloat F] {s s' : Vis F} (hs : WellFormed c s) {ns : List NodeId}
    (h : Vis.initTargetNodes s = (.ok ns, s')) :
    ∃ b bits, currentBitmap s = some b ∧ SubsetBits (tableOf s).cols b 0 bits ∧
      (tableOf s').targets = selected bits (s.bm.backref1 + 1).toNat ∧
      ((∀ (i : Nat) (col : Column F), b.index0 ≤ i → i < b.index1 → (tableOf s).cols[i]? = some col →
          ∀ v ∈ col.vals, ∀ w ∈ col.vals, v = w) →
        ∀ k bits', SubsetBits (tableOf s).cols b k bits' →
          (tableOf s').targets = selected bits' (s.bm.backref1 + 1).toNat) := by
  obtain ⟨b, bits, hb, hbits, _, _, _, ht⟩ := C58_targets hs h
  have h0 : SubsetBits (tableOf s).cols b 0 bits := ⟨hbits.length, fun j n hj => by
    obtain ⟨i, col, v, h1, h2, h3, h4⟩ := hbits.bit j n hj
    exact ⟨i, col, v, h1, h2, by rwa [← List.head?_eq_getElem?], h4⟩⟩
  exact ⟨b, bits, hb, h0, ht, fun hsame k bits' hk => by rw [ht, SubsetBits.unique h0 hk hsame]⟩

namespace SharedBitmap
open PayloadExample

/-- Two elements in two subsets with the same values; the bits of the first subset are 0, 1, of the second 1, 0;
one quality value. -/
def data : Vis ToyFloat := ready cfgC [0x10, 0x8, 0x0, 0x28, 0x19, 0x40]

def quality : Ast :=
  .assessment (plain 222000) (.bitmap (some (plain 236000)) [.fixedRepl (plain 101002) [.element bit false]]) [] [.element e4 false]

def before : Vis ToyFloat := (Vis.visitL cfgC [.element e4 false, .element e4 false] data).2

end SharedBitmap
open PayloadExample SharedBitmap

theorem SharedBitmap.before_ok : (Vis.visitL cfgC [.element e4 false, .element e4 false] data).1 = .ok () := by decide +kernel

theorem SharedBitmap.before_wf : WellFormed cfgC before :=
  (visitL_table cfgC_ok (by decide) (readyC_wf _) (eq_of_fst SharedBitmap.before_ok) (by simp)).2.1

theorem SharedBitmap.run : let x := Vis.visit cfgC quality before
    x.1 = .ok () ∧ currentBitmap x.2 = some ⟨2, 4⟩ ∧
      (tableOf x.2).cols.map (fun c => (c.vals, c.attrs))
        = [([.uint 1, .uint 1], [some 4]), ([.uint 2, .uint 2], []), ([.uint 0, .uint 1], []), ([.uint 1, .uint 0], []),
           ([.uint 5, .uint 5], [])] := by
  decide +kernel

/-- C109 is violated: the bits of the second subset, 1 and 0, are not looked at.  Its quality value belongs to its
second element, but is attached to its first one. -/
theorem C109_violates : ¬ C109_statement := by
  intro hst
  obtain ⟨h1, h2, h3⟩ := SharedBitmap.run
  have hcols : ∀ (i : Nat) vals, ((tableOf (Vis.visit cfgC quality before).2).cols.map (fun c => (c.vals, c.attrs)))[i]? = some (vals, []) →
      ∃ col : Column ToyFloat, (tableOf (Vis.visit cfgC quality before).2).cols[i]? = some col ∧ col.vals = vals := by
    intro i vals h
    rw [List.getElem?_map] at h
    obtain ⟨col, hc, he⟩ := Option.map_eq_some_iff.1 h
    exact ⟨col, hc, congrArg Prod.fst he⟩
  rw [h3] at hcols
  obtain ⟨c2, hc2, hv2⟩ := hcols 2 _ rfl
  obtain ⟨c3, hc3, hv3⟩ := hcols 3 _ rfl
  have key : ∀ (k : Nat) a b, [Val.uint 0, .uint 1][k]? = some (Val.uint (F := ToyFloat) a) →
      [Val.uint 1, .uint 0][k]? = some (Val.uint (F := ToyFloat) b) →
      SubsetBits (tableOf (Vis.visit cfgC quality before).2).cols ⟨2, 4⟩ k [a, b] := by
    intro k a b ha hb
    refine ⟨rfl, fun j n hj => ?_⟩
    match j, hj with
    | 0, hj => exact ⟨2, c2, .uint a, rfl, hc2, by rw [hv2]; exact ha, hj⟩
    | 1, hj => exact ⟨3, c3, .uint b, rfl, hc3, by rw [hv3]; exact hb, hj⟩
  have := hst ToyFloat inferInstance cfgC cfgC_ok ⟨rfl, rfl⟩ _ _ _ _ rfl before _ SharedBitmap.before_wf (eq_of_fst h1) _ h2
    0 1 [0, 1] [1, 0] (key 0 0 1 rfl rfl) (key 1 1 0 rfl rfl)
  cases this

theorem SharedBitmap.twice_ok : (Vis.visitL cfgC [.element e4 false, .element e4 false, quality] data).1 = .ok () := by
  decide +kernel

/-- The hypotheses of `C109_partial` are met: after this assessment, the same bitmap is used once more. -/
example : let s := (Vis.visitL cfgC [.element e4 false, .element e4 false, quality] data).2
    WellFormed cfgC s ∧ s.bm.backref1 = 1 ∧ (match (Vis.initTargetNodes s).1 with | .ok ns => ns.length | _ => 0) = 1 :=
  ⟨(visitL_table cfgC_ok (by decide) (readyC_wf _) (eq_of_fst SharedBitmap.twice_ok) (by simp)).2.1, by decide +kernel,
    by decide +kernel⟩

end Gobufr
