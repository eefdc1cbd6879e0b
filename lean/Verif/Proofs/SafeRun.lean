import Verif.Proofs.Safe
import Verif.Proofs.Header
import Verif.Props.Ast

/-!
# Why decoding a message crashes
-/

set_option linter.unusedSectionVars false

namespace Gobufr
open Safety Spec Layout TemplateSpec ParserSpec

variable {F : Type}

/-- A sequence of calls crashes in one of them. -/
theorem M.bind_crashed {m : M σ α} {f : α → M σ β} {s s' : σ} {o : Outcome β} (h : (m >>= f) s = (o, s')) (ho : o.crashed) :
    (∃ o1, m s = (o1, s') ∧ o1.crashed) ∨ ∃ a s1, m s = (.ok a, s1) ∧ f a s1 = (o, s') := by
  rw [M.bind_apply] at h
  rcases hr : m s with ⟨o1, s1⟩
  rw [hr] at h
  cases o1 with
  | ok a => exact .inr ⟨a, s1, rfl, h⟩
  | err e => cases h; exact ho.elim
  | panic w => cases h; exact .inl ⟨_, rfl, ho⟩
  | diverge => cases h; exact .inl ⟨_, rfl, ho⟩

theorem wrapErr_crashed {w : String} {m : M σ α} {s s' : σ} {o : Outcome α} (h : M.wrapErr w m s = (o, s')) (ho : o.crashed) :
    m s = (o, s') := by
  unfold M.wrapErr at h
  split at h
  · cases h; exact ho.elim
  · exact h

/-- A call that cannot crash. -/
theorem Safe.not {P : σ → Prop} {m : M σ α} {Q : α → σ → Prop} (hm : Safe P m Q fun _ => False) {s s' : σ} {o : Outcome α}
    (hs : P s) (h : m s = (o, s')) (ho : o.crashed) : False := by
  have := hm s hs
  rw [h] at this
  cases o with
  | ok a => exact ho
  | err e => exact ho
  | panic w => exact this
  | diverge => exact this

/-! ## The payload -/

section Payload
variable [GoFloat F]

theorem visitor_cfg {fuel : Nat} {compressed compatible : Bool} {n : Int} {vc : VisCfg}
    (h : newDeserializeVisitor fuel compressed .binary compatible n = .ok vc) (hn : compressed = true → 0 < n) :
    Flat.CfgOk vc ∧ Flat.BinCfg vc ∧ vc.compressed = compressed ∧ vc.nsubsets = n ∧ vc.inputType = .binary := by
  cases compressed with
  | false => cases h; exact ⟨⟨fuel, rfl⟩, ⟨rfl, nofun⟩, rfl, rfl, rfl⟩
  | true => cases h; exact ⟨⟨fuel, rfl⟩, ⟨⟨fuel, rfl⟩, hn⟩, rfl, rfl, rfl⟩

/-- Decoding one subset. -/
theorem root_safe {c : VisCfg} (hc : Flat.CfgOk c) (hb : Flat.BinCfg c) (hi : c.inputType = .binary) {d : Desc} {ns : List Ast}
    (hns : Flat.noBaseL ns = true) {k : Nat} (hh : harmlessL c.compressed ns 0 = some k) :
    Safe (fun v : Vis F => Safe.Bin v.r) (Vis.visit c (.base d ns)) (fun _ v => Safe.Bin v.r) fun _ => False := by
  intro s hs
  have hinv : Flat.Inv c 0 (Flat.fresh c s.r) := by
    refine ⟨hs, ?_, Int.le_refl _, Nat.zero_le _⟩
    unfold Flat.fresh
    simp only [hi, and_true]
  have hf := Flat.visitL_safe (F := F) (E := fun _ => False) hb ns 0 k hh _ hinv
  obtain ⟨s1, hr⟩ : ∃ s1, Vis.reset c s = (.ok (), s1) := by
    unfold Vis.reset
    rw [if_neg]
    · exact ⟨_, rfl⟩
    · rintro ⟨h1, -, h2⟩
      have := hb.subsets h1
      omega
  have hv : Vis.visit c (.base d ns) s = Vis.visitL c ns s1 := by
    simp only [Vis.visit]
    exact M.bind_ok hr
  rw [hv]
  obtain ⟨hrep, -, -, -⟩ := Flat.represents_fresh c s s1 hr
  obtain ⟨ρ', _, ho, hrep'⟩ := Flat.sim_visitL hc ns hns [] s1 _ hrep
  rw [Flat.outRel_any ho] at hf
  revert hf hrep'
  cases (Vis.visitL c ns s1).1 with
  | ok _ =>
    intro hf hrep'
    show Safe.Bin (Vis.visitL c ns s1).2.r
    rw [(hrep' nofun).1.r]
    exact hf.bin
  | err e => intros; trivial
  | panic w => exact fun hf _ => hf
  | diverge => exact fun hf _ => hf

/-- Decoding the subsets. -/
theorem subsets_safe {c : VisCfg} (hc : Flat.CfgOk c) (hb : Flat.BinCfg c) (hi : c.inputType = .binary) {d : Desc} {ns : List Ast}
    (hns : Flat.noBaseL ns = true) {k : Nat} (hh : harmlessL c.compressed ns 0 = some k) : (n : Nat) → (p : Payload F) →
    Safe (fun v : Vis F => Safe.Bin v.r) (Vis.decodeSubsets c (.base d ns) n p) (fun _ v => Safe.Bin v.r) fun _ => False
  | 0, p => Safe.pure fun _ h => h
  | n + 1, p => by
    unfold Vis.decodeSubsets
    refine (root_safe hc hb hi hns hh).bind fun _ => Safe.bind (Q := fun _ v => Safe.Bin v.r) ?_ fun p => subsets_safe hc hb hi hns hh n p
    unfold Vis.produce
    refine Safe.bind (Q := fun _ v => Safe.Bin v.r) ?_ fun root => fun s hs => hs
    intro s hs
    unfold Vis.treeRoot
    by_cases h : s.stack.isEmpty = true
    · rw [if_pos h]; exact hs
    · rw [if_neg h]; trivial

/-- The payload field crashes for templates that are not harmless only. -/
theorem newPayloadField_crashed {c : FacCfg} (hc : c.inputType = .binary) {s s' : Fac F} {m : Message F} {front : List (Section F)}
    {sec : Section F} {name : GoString} {n : Int} {b : Bool} {o : Outcome (Field F)} {ut : UnexpandedTemplate} {g : ChainGroup}
    (hm : s.message = some m) (hl : m.sections = front ++ [sec]) (hb : Safe.Bin s.r) (hu : s.ut = some ut) (hg : s.tableGroup = some g)
    (h : Fac.newPayloadField c name n b s = (o, s')) (ho : o.crashed) :
    (∃ r, s' = { s with r := r }) ∧ ¬ HarmlessTemplate (parse g.lookup c.fuel ut.ids) n b := by
  unfold Fac.newPayloadField at h
  have hlk : Fac.lookup s = g.lookup := by unfold Fac.lookup; rw [hg]
  rw [M.bind_ok (M.gets_apply _ _)] at h
  have hp : Fac.parseTemplate c s = (Outcome.wrapErr "cannot parse template" (parse g.lookup c.fuel ut.ids), s) := by
    unfold Fac.parseTemplate
    rw [hu, ← hlk]
  cases ht : parse g.lookup c.fuel ut.ids with
  | err e =>
    rw [ht] at hp
    rw [M.bind_err hp] at h
    cases h
    exact ho.elim
  | panic w =>
    rw [ht] at hp
    rw [M.bind_panic hp] at h
    cases h
    exact ⟨⟨s.r, rfl⟩, fun h => h⟩
  | diverge =>
    rw [ht] at hp
    rw [M.bind_diverge hp] at h
    cases h
    exact ⟨⟨s.r, rfl⟩, fun h => h⟩
  | ok t =>
    rw [ht] at hp
    obtain ⟨ns, f', rfl, -⟩ := parse_ok_iff.1 ht
    have hns := parse_noBase (good_chain g) ⟨c.fuel, ht⟩
    have hd : Fac.verboseDump c (.base rootDescriptor ns) s = (.ok (), s) := by
      unfold Fac.verboseDump
      split
      · have := C78_dump _ (C78_parse_trees _ (good_chain g) _ _ ⟨c.fuel, ht⟩) 0 []
        simp only [Nat.mul_zero, List.replicate_zero] at this
        rw [this]
        rfl
      · rfl
    rw [M.bind_ok hp, M.bind_ok hd] at h
    rcases M.bind_crashed h ho with ⟨o1, h1, ho1⟩ | ⟨p, s1, h1, h2⟩
    · unfold Fac.decodePayload at h1
      rw [hc] at h1
      obtain ⟨vc, hvc⟩ : ∃ vc, newDeserializeVisitor c.fuel b .binary c.compatible n = .ok vc := by
        cases b <;> exact ⟨_, rfl⟩
      rw [hvc] at h1
      replace h1 := (M.bind_ok (m := M.lift (.ok vc)) rfl).symm.trans h1
      unfold M.zoom at h1
      obtain ⟨h1, h2⟩ := Prod.mk.inj h1
      refine ⟨⟨_, h2.symm⟩, fun hh => ?_⟩
      obtain ⟨hh, hn⟩ := hh
      obtain ⟨k, hk⟩ := Option.isSome_iff_exists.1 hh
      obtain ⟨c1, c2, c3, c4, c5⟩ := visitor_cfg hvc hn
      rw [← c3] at hk
      exact (subsets_safe c1 c2 c5 hns hk _ _).not (s := Fac.freshVis s.r) hb (Prod.ext h1 rfl) ho1
    · obtain ⟨r, rfl⟩ : ∃ r, s1 = { s with r := r } := by
        unfold Fac.decodePayload at h1
        obtain ⟨vc, s2, h3, h4⟩ := M.bind_eq_ok.1 h1
        simp only [M.lift_apply, Prod.mk.injEq] at h3
        obtain ⟨h3, rfl⟩ := h3
        have h5 : M.zoom (fun s : Fac F => Fac.freshVis s.r) (fun v s => { s with r := v.r })
          (Vis.decodeSubsets vc (.base rootDescriptor ns) (if b = true ∧ c.inputType = .binary then 1 else n).toNat
            { compressed := b }) s = (.ok p, s1) := h4
        simp only [M.zoom, Prod.mk.injEq] at h5
        exact ⟨_, h5.2.symm⟩
      rw [M.bind_ok (M.gets_apply _ _)] at h2
      dsimp only at h2
      rw [M.bind_ok (m := Fac.addField _) (changeSection_eq _ (s := { s with r := r }) hm hl), M.bind_ok (setProxyField_eq _ rfl)] at h2
      cases h2
      exact ho.elim

end Payload

/-! ## Fields -/

section Fields
variable [GoFloat F]

/-- A field whose bytes are not of negative number. -/
def FieldDecl.sound (d : FieldDecl) : Prop := d.dataType = DataType.BYTES → 0 ≤ d.nbits

theorem readValue_safe {t : DataType} {n : Int} (h : t = DataType.BYTES → 0 ≤ n) :
    Safe Safe.Bin (Fac.readValue (F := F) t n) (fun _ => Safe.Bin) fun _ => False := by
  unfold Fac.readValue
  refine .ite (fun _ => ?_) fun _ => .ite (fun _ => ?_) fun _ => .ite (fun _ => ?_) fun _ => .ite (fun _ => ?_) fun _ =>
    .ite (fun hb => ?_) fun _ => .ite (fun _ => ?_) fun _ => .fail
  · exact (Safe.call (NoCrash.readUint _)).bind fun _ => Safe.pure fun _ h => h
  · exact (Safe.call (NoCrash.readInt _)).bind fun _ => Safe.pure fun _ h => h
  · exact (Safe.call NoCrash.readFloat32).bind fun _ => Safe.pure fun _ h => h
  · exact (Safe.call NoCrash.readBool).bind fun _ => Safe.pure fun _ h => h
  · exact (Safe.call (NoCrash.readBytes (Int.tdiv_nonneg (h hb) (by decide)))).bind fun _ => Safe.pure fun _ h => h
  · exact (Safe.call (NoCrash.readBinary _)).bind fun _ => Safe.pure fun _ h => h

theorem newField_calm {d : FieldDecl} (hd : d.sound) {s s' : Fac F} {m : Message F} {front : List (Section F)} {sec : Section F}
    (hm : s.message = some m) (hl : m.sections = front ++ [sec]) (hb : Safe.Bin s.r) {o : Outcome (Field F)}
    (h : Script.newField d s = (o, s')) (ho : o.crashed) : False := by
  rcases hr : Fac.readValue d.dataType d.nbits s.r with ⟨o1, r⟩
  rw [newField_any d hm hl hr] at h
  have := (readValue_safe hd).not hb hr
  cases o1 with
  | ok v => cases h; exact ho
  | err e => cases h; exact ho
  | panic w => exact this trivial
  | diverge => exact this trivial

theorem ReadFields.bin {r r' : Reader F} {ds : List FieldDecl} {fs : List (Field F)} (h : ReadFields r ds fs r') (hb : Safe.Bin r) :
    Safe.Bin r' := (h.less hb).1

theorem newFields_calm : ∀ {ds : List FieldDecl}, (∀ d ∈ ds, d.sound) → ∀ {s s' : Fac F} {m : Message F} {front : List (Section F)}
    {sec : Section F}, s.message = some m → m.sections = front ++ [sec] → Safe.Bin s.r → ∀ {o : Outcome Unit},
    Script.newFields ds s = (o, s') → o.crashed → False
  | [], _, _, _, _, _, _, _, _, _, _, h, ho => by cases h; exact ho
  | d :: ds, hd, s, s', m, front, sec, hm, hl, hb, o, h, ho => by
    unfold Script.newFields at h
    rcases M.bind_crashed h ho with ⟨o1, h1, ho1⟩ | ⟨f, s1, h1, h2⟩
    · exact newField_calm (hd d (by simp)) hm hl hb h1 ho1
    · obtain ⟨v, r, hv, rfl, rfl⟩ := newField_ok hm hl h1
      exact newFields_calm (fun d h => hd d (by simp [h])) rfl rfl ((ReadFields.cons hv (.nil _)).bin hb) h2 ho

theorem luaValue_calm (f : Field F) : ¬ f.luaValue.crashed := by
  unfold Field.luaValue
  split <;> exact fun h => h

theorem value_calm {f : Field F} {s s' : Fac F} {o : Outcome (LuaVal F)} (h : Script.value f s = (o, s')) (ho : o.crashed) : False := by
  cases h
  exact NoCrash.wrapO (luaValue_calm f) ho

theorem proxyField_calm (m : Message F) (name : GoString) : ¬ (m.proxyField name).crashed := by
  unfold Message.proxyField
  split <;> exact fun h => h

theorem proxyValue_calm {name : String} {s s' : Fac F} {m : Message F} (hm : s.message = some m) {o : Outcome (LuaVal F)}
    (h : Script.proxyValue name s = (o, s')) (ho : o.crashed) : False := by
  unfold Script.proxyValue at h
  rw [M.bind_ok (theMessage_eq hm)] at h
  rcases M.bind_crashed h ho with ⟨o1, h1, ho1⟩ | ⟨f, s1, h1, h2⟩
  · cases h1
    exact NoCrash.wrapO (proxyField_calm m _) ho1
  · exact value_calm h2 ho

/-- Reading a bit string gives nil at the end of the input only. -/
theorem readBinary_nil {n : Int} {r r' : Reader F} (hb : Safe.Bin r) (h : Reader.readBinary n r = (.ok none, r')) : Fac.left r' < 8 := by
  obtain ⟨⟨src, p⟩, rfl⟩ := hb
  obtain ⟨h1, h2⟩ := Prod.mk.inj h
  obtain ⟨t, hrr, hc⟩ := BitReader.readBinary_ok (eq_of_fst h1)
  rw [← h2, hrr]
  rcases hc with ⟨l, -, -, hx⟩ | ⟨-, -, h3, -⟩
  · cases hx
  · exact h3

/-- The padding crashes at the end of the input only. -/
theorem padding_crashed {s s' : Fac F} {m : Message F} {front : List (Section F)} {sec : Section F} {v : LuaVal F}
    (hm : s.message = some m) (hl : m.sections = front ++ [sec]) (hb : Safe.Bin s.r) {o : Outcome Unit}
    (h : Script.padding v s = (o, s')) (ho : o.crashed) :
    ∃ n r, 0 < n ∧ s' = { s with r := r, message := some { m with sections := front ++ [{ sec with padding := n }] } } ∧ Fac.left r < 8 := by
  unfold Script.padding at h
  rcases M.bind_crashed h ho with ⟨o1, h1, ho1⟩ | ⟨_, _, _, h1⟩
  · replace h1 := wrapErr_crashed h1 ho1
    unfold Fac.padding at h1
    rw [M.bind_ok (bitsLeft_eq _ hm hl)] at h1
    generalize (v.toUnsigned : Int) * 8 - (s.r.pos - sec.startByteIndex * 8) = n at h1
    by_cases h0 : n = 0
    · rw [if_pos h0] at h1; cases h1; exact ho1.elim
    · rw [if_neg h0] at h1
      by_cases h3 : n < 0
      · rw [if_pos h3] at h1; cases h1; exact ho1.elim
      · rw [if_neg h3, M.bind_ok (changeSection_eq _ hm hl)] at h1
        rcases M.bind_crashed h1 ho1 with ⟨o2, h2, ho2⟩ | ⟨b, s2, h2, h4⟩
        · exfalso
          replace h2 := wrapErr_crashed h2 ho2
          unfold Fac.onReader M.zoom at h2
          obtain ⟨h2, -⟩ := Prod.mk.inj h2
          exact (Safe.call (F := F) (E := fun _ => False) (mj := PeekJson.readBinary n) (NoCrash.readBinary n)).not (s := s.r) hb (Prod.ext h2 rfl) ho2
        · obtain ⟨hb1, hb2⟩ := onReader_ok (of_wrapErr_ok h2)
          cases b with
          | none =>
            cases h4
            exact ⟨n, s'.r, by omega, hb2, readBinary_nil hb hb1⟩
          | some b =>
            rcases M.bind_crashed h4 ho1 with ⟨o3, h5, ho3⟩ | ⟨_, _, _, h5⟩
            · rw [hb2, Fac.addField, changeSection_eq _ rfl rfl] at h5
              cases h5
              exact ho3.elim
            · cases h5
              exact ho1.elim
  · cases h1; exact ho.elim

/-! ## The template -/

theorem readIds_safe : ∀ k, Safe Safe.Bin (Fac.readIds (F := F) 2 6 8 k) (fun _ => Safe.Bin) fun _ => False
  | 0 => Safe.pure fun _ h => h
  | k + 1 => by
    unfold Fac.readIds
    refine Safe.bind (Q := fun _ => Safe.Bin) ?_ fun _ => (readIds_safe k).bind fun _ => Safe.pure fun _ h => h
    unfold Fac.readId
    exact (Safe.call (NoCrash.readUint _)).bind fun _ => (Safe.call (NoCrash.readUint _)).bind fun _ =>
      (Safe.call (NoCrash.readUint _)).bind fun _ => Safe.pure fun _ h => h

/-- The template crashes if the length of the section ends before it only. -/
theorem newTemplateField_crashed {s s' : Fac F} {m : Message F} {front : List (Section F)} {sec : Section F} {name : GoString} {L : Nat}
    (hm : s.message = some m) (hl : m.sections = front ++ [sec]) (hb : Safe.Bin s.r) {o : Outcome (Field F)}
    (h : raise (Fac.newTemplateField name 2 6 8 L) s = (o, s')) (ho : o.crashed) :
    s' = s ∧ ((L : Int) * 8 - (s.r.pos - sec.startByteIndex * 8)).tdiv 16 < 0 := by
  replace h := wrapErr_crashed h ho
  unfold Fac.newTemplateField at h
  rw [M.bind_ok (bitsLeft_eq L hm hl)] at h
  dsimp only at h
  rw [if_neg (by decide)] at h
  by_cases h0 : ((L : Int) * 8 - (s.r.pos - sec.startByteIndex * 8)).tdiv (2 + 6 + 8) < 0
  · rw [if_pos h0] at h
    cases h
    exact ⟨rfl, h0⟩
  · rw [if_neg h0] at h
    exfalso
    rcases M.bind_crashed h ho with ⟨o1, h1, ho1⟩ | ⟨ids, s1, h1, h2⟩
    · unfold Fac.onReader M.zoom at h1
      obtain ⟨h1, -⟩ := Prod.mk.inj h1
      exact (readIds_safe _).not (s := s.r) hb (Prod.ext h1 rfl) ho1
    · obtain ⟨-, h3⟩ := onReader_ok h1
      rw [h3] at h2
      rw [M.bind_ok (M.modify_apply _ _)] at h2
      dsimp only at h2
      rw [M.bind_ok (m := Fac.addField _) (changeSection_eq _ (s := { s with r := s1.r, ut := some ⟨ids, 2, 6, 8⟩ }) hm hl), M.bind_ok (setProxyField_eq _ rfl)] at h2
      cases h2
      exact ho.elim

/-- The widths of the fields read. -/
theorem ReadFields.widths {r r' : Reader F} {ds : List FieldDecl} {fs : List (Field F)} (h : ReadFields r ds fs r') :
    fieldBits fs = (ds.map (·.nbits)).sum := by
  induction h with
  | nil r => rfl
  | @cons r r1 r2 d ds fs v h1 h2 ih =>
    simp only [fieldBits, List.map_cons, List.sum_cons] at ih ⊢
    rw [ih]
    rfl

/-- The position after fields that are no bit strings. -/
theorem ReadFields.advance {r r' : Reader F} {ds : List FieldDecl} {fs : List (Field F)} (h : ReadFields r ds fs r') (hb : Safe.Bin r)
    (hn : ∀ d ∈ ds, d.nice) (hd : ∀ d ∈ ds, d.dataType ≠ DataType.BINARY) : r'.pos = r.pos + (ds.map (·.nbits)).sum := by
  obtain ⟨⟨src, p⟩, rfl⟩ := hb
  rw [← h.widths]
  refine (h.at (P := fun _ => False) (src := src) (p0 := p) hn (fun _ _ _ _ h => h.elim) ⟨[], src, ?_, rfl⟩ (.inr hd)).2.1
  simp

/-! ## Sections -/

theorem fields_sound : (∀ d ∈ Script.fields0, d.sound) ∧ (∀ d ∈ Script.fields1Edition3, d.sound) ∧
    (∀ d ∈ Script.fields1Edition4, d.sound) ∧ ∀ d ∈ Script.fields3, d.sound := by
  unfold FieldDecl.sound
  decide

theorem lengthDecl_sound : lengthDecl.sound := nofun

theorem section0_calm {s s' : Fac F} {m : Message F} (hm : s.message = some m) (hb : Safe.Bin s.r) {o : Outcome Unit}
    (h : Script.section0 s = (o, s')) (ho : o.crashed) : False := by
  unfold Script.section0 at h
  rw [M.bind_ok (newSection_eq _ _ hm)] at h
  exact newFields_calm fields_sound.1 rfl rfl (by exact hb) h ho

theorem section5_calm {s s' : Fac F} {m : Message F} (hm : s.message = some m) (hb : Safe.Bin s.r) {o : Outcome Unit}
    (h : Script.section5 s = (o, s')) (ho : o.crashed) : False := by
  unfold Script.section5 at h
  rw [M.bind_ok (newSection_eq _ _ hm)] at h
  refine newFields_calm ?_ rfl rfl (by exact hb) h ho
  unfold FieldDecl.sound
  decide

theorem section1_crashed {c : FacCfg} {ds : List FieldDecl} (hds : ∀ d ∈ ds, d.sound) {s s' : Fac F} {m : Message F}
    (hm : s.message = some m) (hb : Safe.Bin s.r) {o : Outcome Unit} (h : Script.section1 ds s = (o, s')) (ho : o.crashed) :
    CrashCause c s' := by
  unfold Script.section1 at h
  rw [M.bind_ok (newSection_eq _ _ hm)] at h
  rcases M.bind_crashed h ho with ⟨o1, h1, ho1⟩ | ⟨f, s1, h1, h2⟩
  · exact (newField_calm lengthDecl_sound rfl rfl (by exact hb) h1 ho1).elim
  obtain ⟨v, r1, hv, rfl, rfl⟩ := newField_ok rfl rfl h1
  have hb1 : Safe.Bin r1 := (ReadFields.cons hv (.nil _)).bin hb
  rcases M.bind_crashed h2 ho with ⟨o2, h3, ho2⟩ | ⟨_, s2, h3, h4⟩
  · exact (newFields_calm hds rfl rfl (by exact hb1) h3 ho2).elim
  obtain ⟨r2, fs, hr, rfl⟩ := newFields_ok rfl rfl h3
  rcases M.bind_crashed h4 ho with ⟨o2, h5, ho2⟩ | ⟨v, s2, h5, h6⟩
  · exact (value_calm h5 ho2).elim
  obtain ⟨-, rfl⟩ := value_ok h5
  obtain ⟨n, r, hn, rfl, hl⟩ := padding_crashed rfl rfl (by exact hr.bin hb1) h6 ho
  exact .padding rfl List.getLast?_concat (.inl rfl) hn hl

theorem number_calm (v : LuaVal F) : ¬ v.number.crashed := by
  unfold LuaVal.number
  split <;> exact fun h => h

theorem section2_calm {s s' : Fac F} {m : Message F} (hm : s.message = some m) (hb : Safe.Bin s.r) {o : Outcome Unit}
    (h : Script.section2 s = (o, s')) (ho : o.crashed) : False := by
  unfold Script.section2 at h
  rw [M.bind_ok (newSection_eq _ _ hm)] at h
  rcases M.bind_crashed h ho with ⟨o1, h1, ho1⟩ | ⟨f, s1, h1, h2⟩
  · exact newField_calm lengthDecl_sound rfl rfl (by exact hb) h1 ho1
  obtain ⟨v, r1, hv, rfl, rfl⟩ := newField_ok rfl rfl h1
  have hb1 : Safe.Bin r1 := (ReadFields.cons hv (.nil _)).bin hb
  rcases M.bind_crashed h2 ho with ⟨o2, h3, ho2⟩ | ⟨f2, s2, h3, h4⟩
  · refine newField_calm ?_ rfl rfl (by exact hb1) h3 ho2
    exact nofun
  obtain ⟨v2, r2, hv2, rfl, rfl⟩ := newField_ok rfl rfl h3
  have hb2 : Safe.Bin r2 := (ReadFields.cons hv2 (.nil _)).bin hb1
  rcases M.bind_crashed h4 ho with ⟨o2, h5, ho2⟩ | ⟨v3, s3, h5, h6⟩
  · exact value_calm h5 ho2
  obtain ⟨-, rfl⟩ := value_ok h5
  rcases M.bind_crashed h6 ho with ⟨o2, h7, ho2⟩ | ⟨k, s3, h7, h8⟩
  · cases h7
    exact number_calm v3 ho2
  simp only [M.lift_apply, Prod.mk.injEq] at h7
  obtain ⟨-, rfl⟩ := h7
  rcases M.bind_crashed h8 ho with ⟨o2, h9, ho2⟩ | ⟨k, s3, h9, h10⟩
  · refine newField_calm ?_ rfl rfl (by exact hb2) h9 ho2
    exact nofun
  · cases h10
    exact ho

theorem tdiv_start (p : Int) : p - p.tdiv 8 * 8 < 8 := by
  have h1 := Int.tmod_add_mul_tdiv p 8
  have h2 := Int.tmod_lt_of_pos p (show (0 : Int) < 8 by decide)
  omega

theorem tdiv_neg {a : Int} (h : a.tdiv 16 < 0) : a ≤ -16 := by
  have h1 := Int.tmod_add_mul_tdiv a 16
  by_cases h2 : 0 ≤ a
  · have := Int.tdiv_nonneg h2 (show (0 : Int) ≤ 16 by decide)
    omega
  · have h3 : a.tmod 16 ≤ 0 := by
      have := Int.tmod_nonneg 16 (show 0 ≤ -a by omega)
      rw [Int.neg_tmod] at this
      omega
    omega

theorem section3_crashed {c : FacCfg} {s s' : Fac F} {m : Message F}
    (hm : s.message = some m) (hb : Safe.Bin s.r) {o : Outcome Unit} (h : Script.section3 s = (o, s')) (ho : o.crashed) :
    CrashCause c s' := by
  unfold Script.section3 at h
  rw [M.bind_ok (newSection_eq _ _ hm)] at h
  rcases M.bind_crashed h ho with ⟨o1, h1, ho1⟩ | ⟨f, s1, h1, h2⟩
  · exact (newField_calm lengthDecl_sound rfl rfl (by exact hb) h1 ho1).elim
  obtain ⟨v, r1, hv, rfl, rfl⟩ := newField_ok rfl rfl h1
  have hb1 : Safe.Bin r1 := (ReadFields.cons hv (.nil _)).bin hb
  rcases M.bind_crashed h2 ho with ⟨o2, h3, ho2⟩ | ⟨_, s2, h3, h4⟩
  · exact (newFields_calm fields_sound.2.2.2 rfl rfl (by exact hb1) h3 ho2).elim
  obtain ⟨r2, fs, hr, rfl⟩ := newFields_ok rfl rfl h3
  obtain ⟨L, rfl⟩ := readUint_value hv
  have hb2 := hr.bin hb1
  rcases M.bind_crashed h4 ho with ⟨o2, h5, ho2⟩ | ⟨v, s2, h5, h6⟩
  · exact (value_calm h5 ho2).elim
  obtain ⟨rfl, rfl⟩ := value_length (L := L) h5
  have hpos := (ReadFields.cons (d := lengthDecl) hv hr).advance hb (by decide) (by decide)
  replace hpos : r2.pos = s.r.pos + 56 := hpos
  rcases M.bind_crashed h6 ho with ⟨o2, h7, ho2⟩ | ⟨f2, s2, h7, h8⟩
  · obtain ⟨rfl, hlt⟩ := newTemplateField_crashed rfl rfl (by exact hb2) h7 ho2
    refine .short (n := L) (f := lengthOf L) rfl List.getLast?_concat rfl rfl rfl rfl ?_
    replace hlt : ((L : Int) * 8 - (r2.pos - s.r.pos.tdiv 8 * 8)).tdiv 16 < 0 := hlt
    have := tdiv_neg hlt
    have := tdiv_start s.r.pos
    omega
  obtain ⟨r3, ids, k, hk, hids, rfl, rfl⟩ := newTemplateField_ok rfl rfl h7
  have hb3 : Safe.Bin r3 := by
    have := readIds_safe k _ hb2
    rw [show Fac.readIds 2 6 8 k r2 = _ from hk] at this
    exact this
  rcases M.bind_crashed h8 ho with ⟨o2, h9, ho2⟩ | ⟨v, s2, h9, h10⟩
  · exact (value_calm h9 ho2).elim
  obtain ⟨-, rfl⟩ := value_ok h9
  obtain ⟨n, r, hn, rfl, hl⟩ := padding_crashed rfl rfl (by exact hb3) h10 ho
  exact .padding rfl List.getLast?_concat (.inr (.inl rfl)) hn hl

theorem section4_crashed {c : FacCfg} (hc : c.inputType = .binary) {s s' : Fac F} {m : Message F} {ut : UnexpandedTemplate} {g : ChainGroup}
    {nf cf : Field F} {n : Nat} {b : Bool}
    (hm : s.message = some m) (hb : Safe.Bin s.r) (hu : s.ut = some ut) (hg : s.tableGroup = some g)
    (hn1 : m.proxyField (str "nSubsets") = .ok nf) (hn2 : nf.value = .val (.uint n))
    (hc1 : m.proxyField (str "isCompressed") = .ok cf) (hc2 : cf.value = .val (.bool b))
    {o : Outcome Unit} (h : Script.section4 c s = (o, s')) (ho : o.crashed) : CrashCause c s' := by
  unfold Script.section4 at h
  rw [M.bind_ok (newSection_eq _ _ hm)] at h
  rcases M.bind_crashed h ho with ⟨o1, h1, ho1⟩ | ⟨f, s1, h1, h2⟩
  · exact (newField_calm lengthDecl_sound rfl rfl (by exact hb) h1 ho1).elim
  obtain ⟨v, r1, hv, rfl, rfl⟩ := newField_ok rfl rfl h1
  have hb1 : Safe.Bin r1 := (ReadFields.cons hv (.nil _)).bin hb
  rcases M.bind_crashed h2 ho with ⟨o2, h3, ho2⟩ | ⟨f2, s2, h3, h4⟩
  · refine (newField_calm ?_ rfl rfl (by exact hb1) h3 ho2).elim
    exact nofun
  obtain ⟨v2, r2, hv2, rfl, rfl⟩ := newField_ok rfl rfl h3
  have hb2 : Safe.Bin r2 := (ReadFields.cons hv2 (.nil _)).bin hb1
  have pv : ∀ {name : String} {s s' : Fac F} {m : Message F} {f : Field F} {v : LuaVal F}, s.message = some m →
      m.proxyField (str name) = .ok f → Script.proxyValue name s = (.ok v, s') → f.luaValue = .ok v ∧ s' = s := by
    intro name s s' m f v hm hf h
    obtain ⟨f', h1, h2, h3⟩ := proxyValue_ok hm h
    unfold Message.proxyField at hf
    rw [h1] at hf
    cases hf
    exact ⟨h2, h3⟩
  rcases M.bind_crashed h4 ho with ⟨o2, h5, ho2⟩ | ⟨nv, s2, h5, h6⟩
  · exact (proxyValue_calm rfl h5 ho2).elim
  obtain ⟨hnv, rfl⟩ := pv rfl (by exact hn1) h5
  rcases M.bind_crashed h6 ho with ⟨o2, h7, ho2⟩ | ⟨cv, s2, h7, h8⟩
  · exact (proxyValue_calm rfl h7 ho2).elim
  obtain ⟨hcv, rfl⟩ := pv rfl (by exact hc1) h7
  have en : nv = .num (n : Int) := by
    unfold Field.luaValue at hnv
    rw [hn2] at hnv
    cases hnv
    rfl
  have ec : cv = .bool b := by
    unfold Field.luaValue at hcv
    rw [hc2] at hcv
    cases hcv
    rfl
  subst en ec
  rcases M.bind_crashed h8 ho with ⟨o2, h9, ho2⟩ | ⟨f3, s2, h9, h10⟩
  · obtain ⟨⟨r, rfl⟩, hh⟩ := newPayloadField_crashed hc rfl rfl (by exact hb2) (by exact hu) (by exact hg) (wrapErr_crashed h9 ho2) ho2
    exact .template rfl List.getLast?_concat rfl hu hg hn1 hn2 hc1 hc2 hh
  obtain ⟨ut', p, r3, hu', hd, rfl, rfl⟩ := newPayloadField_full rfl rfl h9
  have hb3 : Safe.Bin r3 := by
    have hlk : Fac.lookup (F := F) { s with r := r2 } = g.lookup := by unfold Fac.lookup; rw [hg]
    have hd' : DecodesAt c (Fac.lookup (F := F) { s with r := r2 }) ut'.ids n b r2 p r3 := hd
    rw [hlk] at hd'
    exact (hd'.less hc hb2).1
  rcases M.bind_crashed h10 ho with ⟨o2, h11, ho2⟩ | ⟨v, s2, h11, h12⟩
  · exact (value_calm h11 ho2).elim
  obtain ⟨-, rfl⟩ := value_ok h11
  obtain ⟨k, r, hk, rfl, hl⟩ := padding_crashed rfl rfl (by exact hb3) h12 ho
  exact .padding rfl List.getLast?_concat (.inr (.inr rfl)) hk hl

/-! ## Messages -/

theorem optionalSection2_calm {s s' : Fac F} {m : Message F} (hm : s.message = some m) (hb : Safe.Bin s.r) {o : Outcome Unit}
    (h : Script.optionalSection2 s = (o, s')) (ho : o.crashed) : False := by
  unfold Script.optionalSection2 at h
  rcases M.bind_crashed h ho with ⟨o1, h1, ho1⟩ | ⟨v, s1, h1, h2⟩
  · exact proxyValue_calm hm h1 ho1
  obtain ⟨f, -, -, rfl⟩ := proxyValue_ok hm h1
  by_cases hv : v.toBoolean = true
  · rw [if_pos hv] at h2
    exact section2_calm hm hb h2 ho
  · rw [if_neg hv] at h2
    cases h2
    exact ho

theorem optionalSection2_full {s s' : Fac F} {m : Message F} (hm : s.message = some m) (hb : Safe.Bin s.r)
    (h : Script.optionalSection2 s = (.ok (), s')) :
    Safe.Bin s'.r ∧ ∃ m', s'.message = some m' ∧ m'.proxyFields = m.proxyFields := by
  unfold Script.optionalSection2 at h
  obtain ⟨v, s1, h1, h2⟩ := M.bind_eq_ok.1 h
  obtain ⟨f, -, -, rfl⟩ := proxyValue_ok hm h1
  by_cases hv : v.toBoolean = true
  · rw [if_pos hv] at h2
    obtain ⟨L, r, fs, hr, rfl⟩ := section2_full hm h2
    exact ⟨hr.bin hb, _, rfl, rfl⟩
  · rw [if_neg hv] at h2
    cases h2
    exact ⟨hb, m, hm, rfl⟩

theorem addSingle_calm {t : Tables} (ht : CalmTables t) (n : TableNum) : NoCrash (addSingleTableGroup t n) := by
  unfold addSingleTableGroup
  refine NoCrash.bind (NoCrash.ofLift ?_) fun g => fun _ => id
  obtain ⟨h1, h2⟩ := ht n
  unfold newSingleTableGroup
  cases hb : t.getB n with
  | ok b =>
    cases hd : t.getD n with
    | ok d => exact id
    | err e => exact id
    | panic w => rw [hd] at h2; exact absurd trivial h2
    | diverge => rw [hd] at h2; exact absurd trivial h2
  | err e => exact id
  | panic w => rw [hb] at h1; exact absurd trivial h1
  | diverge => rw [hb] at h1; exact absurd trivial h1

theorem addGroups_calm {t : Tables} (ht : CalmTables t) (a b c d e : Int) : NoCrash (addLocalAndWmoTableGroups t a b c d e) := by
  unfold addLocalAndWmoTableGroups
  refine .ite (fun _ => ?_) fun _ => addSingle_calm ht _
  intro s
  unfold M.handle
  have h := addSingle_calm ht ⟨a, b, c, e⟩ s
  rcases hr : addSingleTableGroup t ⟨a, b, c, e⟩ s with ⟨o, s'⟩
  rw [hr] at h
  cases o with
  | ok u => exact addSingle_calm ht _ s'
  | err x =>
    exact NoCrash.ite (fun _ => (addSingle_calm ht _).bind fun _ => addSingle_calm ht _) (fun _ => fun _ => id) s'
  | panic w => exact absurd trivial h
  | diverge => exact absurd trivial h

theorem initTableGroup_calm {c : FacCfg} (ht : CalmTables c.tables) {s s' : Fac F} {m : Message F} (hm : s.message = some m)
    {o : Outcome Unit} (h : Script.initTableGroup c s = (o, s')) (ho : o.crashed) : False := by
  unfold Script.initTableGroup at h
  rcases M.bind_crashed h ho with ⟨o1, h1, ho1⟩ | ⟨v1, s1, p1, q1⟩
  · exact proxyValue_calm hm h1 ho1
  obtain ⟨_, -, -, e1⟩ := proxyValue_ok hm p1
  rw [e1] at q1
  rcases M.bind_crashed q1 ho with ⟨o1, h1, ho1⟩ | ⟨v2, s2, p2, q2⟩
  · exact proxyValue_calm hm h1 ho1
  obtain ⟨_, -, -, e2⟩ := proxyValue_ok hm p2
  rw [e2] at q2
  rcases M.bind_crashed q2 ho with ⟨o1, h1, ho1⟩ | ⟨v3, s3, p3, q3⟩
  · exact proxyValue_calm hm h1 ho1
  obtain ⟨_, -, -, e3⟩ := proxyValue_ok hm p3
  rw [e3] at q3
  rcases M.bind_crashed q3 ho with ⟨o1, h1, ho1⟩ | ⟨v4, s4, p4, q4⟩
  · exact proxyValue_calm hm h1 ho1
  obtain ⟨_, -, -, e4⟩ := proxyValue_ok hm p4
  rw [e4] at q4
  rcases M.bind_crashed q4 ho with ⟨o1, h1, ho1⟩ | ⟨v5, s5, p5, q5⟩
  · exact proxyValue_calm hm h1 ho1
  obtain ⟨_, -, -, e5⟩ := proxyValue_ok hm p5
  rw [e5] at q5
  clear h
  have h := wrapErr_crashed q5 ho
  unfold Fac.initTableGroup at h
  have hc := addGroups_calm ht v1.toInteger v2.toInteger v3.toInteger v4.toInteger v5.toInteger ⟨[]⟩
  split at h
  · cases h; exact ho
  · cases h; exact ho
  · rename_i hr; rw [hr] at hc; exact hc trivial
  · rename_i hr; rw [hr] at hc; exact hc trivial

theorem deserialise_crashed {c : FacCfg} (hc : c.inputType = .binary) (ht : CalmTables c.tables) {ds : List FieldDecl}
    (hds : ∀ d ∈ ds, d.sound) {s s' : Fac F} (hb : Safe.Bin s.r) {o : Outcome (Message F)}
    (h : Script.deserialise c ds s = (o, s')) (ho : o.crashed) : CrashCause c s' := by
  unfold Script.deserialise at h
  rcases M.bind_crashed h ho with ⟨o1, h1, ho1⟩ | ⟨_, s1, h1, q1⟩
  · cases h1; exact ho1.elim
  cases h1
  rcases M.bind_crashed q1 ho with ⟨o1, h2, ho1⟩ | ⟨_, s2, h2, q2⟩
  · exact (section0_calm rfl (by exact hb) h2 ho1).elim
  obtain ⟨r1, fs0, hr0, rfl⟩ := section0_ok rfl h2
  have hb1 : Safe.Bin r1 := hr0.bin hb
  rcases M.bind_crashed q2 ho with ⟨o1, h3, ho1⟩ | ⟨_, s3, h3, q3⟩
  · exact section1_crashed hds rfl (by exact hb1) h3 ho1
  obtain ⟨L1, r2, r1', fs1, pad1, n1, hr1, hp1, rfl⟩ := section1_full rfl h3
  have hb2 : Safe.Bin r2 := (hp1.less (hr1.bin hb1)).1
  rcases M.bind_crashed q3 ho with ⟨o1, h4, ho1⟩ | ⟨_, s4, h4, q4⟩
  · exact (optionalSection2_calm rfl (by exact hb2) h4 ho1).elim
  obtain ⟨hb3, m3, hm3, -⟩ := optionalSection2_full rfl hb2 h4
  rcases M.bind_crashed q4 ho with ⟨o1, h5, ho1⟩ | ⟨_, s5, h5, q5⟩
  · exact section3_crashed hm3 hb3 h5 ho1
  obtain ⟨L3, r4, r3', r3'', fs3, ids, k, pad3, n3, hr3, hk, hids, hp3, rfl⟩ := section3_full hm3 h5
  have hb3' := hr3.bin hb3
  have hb3'' : Safe.Bin r3'' := by
    have := readIds_safe k _ hb3'
    rw [hids] at this
    exact this
  have hb4 : Safe.Bin r4 := (hp3.less hb3'').1
  rcases M.bind_crashed q5 ho with ⟨o1, h6, ho1⟩ | ⟨_, s6, h6, q6⟩
  · exact (initTableGroup_calm ht rfl h6 ho1).elim
  obtain ⟨g, rfl⟩ := initTableGroup_ok rfl h6
  have hnd3 : ((lengthDecl :: Script.fields3).map fun x => str x.name).Nodup := by decide
  obtain ⟨x1, ra, rb, i1, -, i3⟩ := hr3.lookup (d := ⟨"nSubsets", DataType.UINT, 16, true⟩) hnd3 (by decide)
  obtain ⟨nsub, rfl⟩ := readUint_value i1
  obtain ⟨x2, rc, rd, j1, -, j3⟩ := hr3.lookup (d := ⟨"isCompressed", DataType.BOOL, 1, true⟩) hnd3 (by decide)
  obtain ⟨co, rfl⟩ := readBool_value j1
  have pf : ∀ {ip : GoString} {ss : List (Section F)} {name : String} {f : Field F},
      mapGet (proxiesOf Script.fields3 fs3 m3.proxyFields) (str name) = some f → str "unexpandedTemplate" ≠ str name →
      Message.proxyField ⟨ip, ss, mapSet (proxiesOf Script.fields3 fs3 m3.proxyFields) (str "unexpandedTemplate") (templateField (F := F) ids)⟩
        (str name) = .ok f := by
    intro ip ss name f h1 h2
    unfold Message.proxyField
    rw [mapGet_mapSet_other _ _ h2, h1]
  rcases M.bind_crashed q6 ho with ⟨o1, h7, ho1⟩ | ⟨_, s7, h7, q7⟩
  · exact section4_crashed hc rfl (by exact hb4) rfl rfl (by exact pf (i3 rfl m3.proxyFields) (by decide)) rfl
      (by exact pf (j3 rfl m3.proxyFields) (by decide)) rfl h7 ho1
  obtain ⟨L4, r5, r4', r4'', fs4, ut, p, pad4, n4, nf, cf, nv, cv, hr4, -, -, -, -, -, g6, hp4, rfl⟩ := section4_full rfl h7
  have hb5 : Safe.Bin r5 := (hp4.less (DecodesAt.less (g := g) hc g6 (hr4.bin hb4)).1).1
  rcases M.bind_crashed q7 ho with ⟨o1, h8, ho1⟩ | ⟨_, s8, h8, q8⟩
  · exact (section5_calm rfl (by exact hb5) h8 ho1).elim
  obtain ⟨r6, fs5, hr5, rfl⟩ := section5_ok rfl h8
  cases q8
  exact ho.elim

theorem boot_crashed {c : FacCfg} (hc : c.inputType = .binary) (ht : CalmTables c.tables) {s s' : Fac F} (hb : Safe.Bin s.r)
    {o : Outcome (Message F)} (h : Script.boot c s = (o, s')) (ho : o.crashed) : CrashCause c s' := by
  unfold Script.boot at h
  have hsafe : Safe Safe.Bin (Reader.peekUint (F := F) 7 8) (fun _ => Safe.Bin) fun _ => False :=
    Safe.call (NoCrash.peekUint (by decide) (by decide))
  rcases M.bind_crashed h ho with ⟨o1, h1, ho1⟩ | ⟨n, s1, h1, h2⟩
  · exfalso
    replace h1 := wrapErr_crashed h1 ho1
    unfold Fac.peekEditionNumber Fac.onReader M.zoom at h1
    obtain ⟨h1, -⟩ := Prod.mk.inj h1
    exact hsafe.not (s := s.r) hb (Prod.ext h1 rfl) ho1
  obtain ⟨h3, h4⟩ := onReader_ok (of_wrapErr_ok h1)
  have hb1 : Safe.Bin s1.r := by
    have := hsafe _ hb
    rw [h3] at this
    exact this
  by_cases he : n = 4
  · rw [if_pos he] at h2
    exact deserialise_crashed hc ht fields_sound.2.2.1 hb1 h2 ho
  rw [if_neg he] at h2
  by_cases he : n = 3
  · rw [if_pos he] at h2
    exact deserialise_crashed hc ht fields_sound.2.1 hb1 h2 ho
  · rw [if_neg he] at h2
    cases h2
    exact ho.elim

theorem seekLoop_calm : ∀ (k : Nat) (r : Reader F), Safe.Bin r → (∀ w, (Fac.seekLoop k r).1 ≠ .panic w) ∧ Safe.Bin (Fac.seekLoop k r).2
  | 0, r, hb => ⟨nofun, hb⟩
  | k + 1, _, ⟨b, rfl⟩ => by
    unfold Fac.seekLoop
    rw [M.bind_apply]
    have h := NoCrash.peekBytes (skip := 0) (n := 4) (by decide) (by decide) b
    have hr : Reader.peekBytes 0 4 (Reader.bin (F := F) b) = ((BitReader.peekBytes 0 4 b).1, .bin (BitReader.peekBytes 0 4 b).2) := rfl
    rw [hr]
    cases ho : (BitReader.peekBytes 0 4 b).1 with
    | err e => exact ⟨nofun, _, rfl⟩
    | panic w => rw [ho] at h; exact absurd trivial h
    | diverge => rw [ho] at h; exact absurd trivial h
    | ok bs =>
      dsimp only
      by_cases h1 : bs.length < 4
      · rw [if_pos h1]; exact ⟨nofun, _, rfl⟩
      rw [if_neg h1]
      by_cases h2 : bs = str "BUFR"
      · rw [if_pos h2]; exact ⟨nofun, _, rfl⟩
      rw [if_neg h2]
      generalize (BitReader.peekBytes 0 4 b).2 = b1
      have h3 := NoCrash.readBytes (n := 1) (by decide) b1
      have hr1 : Reader.readBytes 1 (Reader.bin (F := F) b1) = ((BitReader.readBytes 1 b1).1, .bin (BitReader.readBytes 1 b1).2) := rfl
      unfold M.handle
      rw [hr1]
      cases ho1 : (BitReader.readBytes 1 b1).1 with
      | ok bs => exact seekLoop_calm k _ ⟨_, rfl⟩
      | err e => exact seekLoop_calm k _ ⟨_, rfl⟩
      | panic w => rw [ho1] at h3; exact absurd trivial h3
      | diverge => rw [ho1] at h3; exact absurd trivial h3

theorem run_crashed {c : FacCfg} (hc : c.inputType = .binary) (ht : CalmTables c.tables) {s s' : Fac F} (hb : Safe.Bin s.r)
    {o : Outcome (Message F)} (h : Runtime.run c s = (o, s')) (ho : o.crashed) : CrashCause c s' := by
  unfold Runtime.run at h
  rcases M.bind_crashed h ho with ⟨o1, h1, ho1⟩ | ⟨n, s1, h1, h2⟩
  · exfalso
    have hd := (C68_terminates s 0).1
    rw [h1] at hd
    unfold Fac.seekStartSignature Fac.onReader M.zoom at h1
    obtain ⟨h1, -⟩ := Prod.mk.inj h1
    have := (seekLoop_calm (Fac.left s.r + 1) s.r hb).1
    rw [h1] at this
    cases o1 with
    | ok a => exact ho1
    | err e => exact ho1
    | panic w => exact this w rfl
    | diverge => exact hd rfl
  · refine boot_crashed hc ht ?_ h2 ho
    unfold Fac.seekStartSignature Fac.onReader M.zoom at h1
    obtain ⟨-, rfl⟩ := Prod.mk.inj h1
    exact (seekLoop_calm (Fac.left s.r + 1) s.r hb).2

end Fields

end Gobufr
