import Verif.Proof.TypedLeaf
import Verif.Proof.TypedFields
/-
Every item without references that fits the type of a variable is decoded into it.
-/
namespace Sereal

/-- `Fills` now and after any allocation. -/
def FillsS (c : ViewCfg) (tc : TCfg) (h : Heap) (ty : Ty) (cur : TVal) (t : Tree) (v : TVal) : Prop :=
  ∀ h', Grow h h' → Fills c tc (Shows c h') ty cur t v

theorem FillsS.mono {c : ViewCfg} {tc : TCfg} {h h1 : Heap} {ty : Ty} {cur : TVal} {t : Tree} {v : TVal}
    (x : FillsS c tc h ty cur t v) (g : Grow h h1) : FillsS c tc h1 ty cur t v :=
  fun h' g' => x h' (g.trans g')

theorem Takes.hash {c : ViewCfg} {tc : TCfg} {e : Ty} {cur : TVal} {kts : List (Bytes × Tree)} (he : HashTy e)
    (h : Takes c tc (.ptr e) cur (.map kts)) : Takes c tc e cur.pointee (.map kts) := by
  obtain ⟨v, h⟩ := h
  cases h with
  | ptr _ h => exact ⟨_, h⟩
  | undefPtr _ h => rcases h with h | h <;> cases h
  | undef _ h => rcases h with h | h <;> cases h

section
variable (cfg : DCfg) (tc : TCfg) (buf : Bytes)

/-- What a run into typed variables does on each kind of job. -/
def TComp (cd : Bool) (job : Job) (i : Nat) (out : Out) (j : Nat) : Prop :=
  match job, out with
  | .item, .tree t => NoRefs t → ∀ ty cur, Takes cfg.view tc ty cur t → ∀ f, need buf cd i ≤ f → ∀ s : DState,
      s.Canon → s.cd = cd →
      ∃ s' v, decodeTyped cfg tc buf f i ty cur .rw s = (.ok (j, v), s') ∧ s.Step s' ∧
        FillsS cfg.view tc s'.heap ty cur t v
  | .body c, .tree t => NoRefs t → i ≤ buf.length →
      (∀ n, c = .short n ∨ c = .arrayref n ∨ c = .hashref n → n < 32) →
      ∀ ty cur, Takes cfg.view tc ty cur t → ty ≠ .iface → ∀ f, need buf cd i ≤ f → ∀ (tag : Nat) (s : DState),
      s.Canon → s.cd = cd →
      ∃ s' v, typedC cfg tc buf (decodeTyped cfg tc buf f) c i ty cur .rw tag s = (.ok (j, v), s') ∧ s.Step s' ∧
        FillsS cfg.view tc s'.heap ty cur t v
  | .items n, .trees ts => (∀ t ∈ ts, NoRefs t) → ∀ e (base : List TVal),
      (∀ (x : Nat) t b, ts[x]? = some t → base[x]? = some b → Takes cfg.view tc e b t) →
      (∀ (x : Nat) t, base.length ≤ x → ts[x]? = some t → Supported cfg.view t) →
      ∀ f, need buf cd i ≤ f → ∀ s : DState, s.Canon → s.cd = cd →
      ∃ s' vs, elemsLoop cfg buf (decodeTyped cfg tc buf f) e .rw n base i s = (.ok (j, vs), s') ∧ s.Step s' ∧
        vs.length = base.length ∧
        (∀ (x : Nat) t b v, ts[x]? = some t → base[x]? = some b → vs[x]? = some v →
          FillsS cfg.view tc s'.heap e b t v) ∧
        (∀ x : Nat, ts.length ≤ x → vs[x]? = base[x]?)
  | .pairs n, .pairs kts => (∀ k t, (k, t) ∈ kts → NoRefs t) →
      (∀ e (kvs : List (Bytes × TVal)), (kts.map Prod.fst).Nodup →
        (∀ k, k ∈ kts.map Prod.fst → mapLookup k kvs = none) →
        (∀ k t, (k, t) ∈ kts → Takes cfg.view tc e .zero t) →
        ∀ f, need buf cd i ≤ f → ∀ s : DState, s.Canon → s.cd = cd →
        ∃ s' kvs', entriesLoop buf (decodeTyped cfg tc buf f) e .rw n kvs i s = (.ok (j, kvs'), s') ∧ s.Step s' ∧
          (∀ k t, (k, t) ∈ kts → ∃ v, mapLookup k kvs' = some v ∧ FillsS cfg.view tc s'.heap e .zero t v) ∧
          (∀ k, k ∉ kts.map Prod.fst → mapLookup k kvs' = mapLookup k kvs)) ∧
      (∀ (fs : List TField) (vs : List TVal), vs.length = fs.length →
        kts.Pairwise (fun p q => ∀ x, FieldFor tc fs p.1 x → ¬ FieldFor tc fs q.1 x) →
        (∀ k t (x : Nat) f b, (k, t) ∈ kts → FieldFor tc fs k x → fs[x]? = some f → vs[x]? = some b →
          f.exported = true ∧ Takes cfg.view tc f.ty b t) →
        (∀ k t, (k, t) ∈ kts → (∀ x, ¬ FieldFor tc fs k x) → Supported cfg.view t) →
        ∀ f, need buf cd i ≤ f → ∀ s : DState, s.Canon → s.cd = cd →
        ∃ s' vs', fieldsLoop cfg tc buf (decodeTyped cfg tc buf f) fs .rw n vs i s = (.ok (j, vs'), s') ∧
          s.Step s' ∧ vs'.length = vs.length ∧
          (∀ k t (x : Nat) f b v, (k, t) ∈ kts → FieldFor tc fs k x → fs[x]? = some f → vs[x]? = some b →
            vs'[x]? = some v → FillsS cfg.view tc s'.heap f.ty b t v) ∧
          (∀ x : Nat, (∀ k, k ∈ kts.map Prod.fst → ¬ FieldFor tc fs k x) → vs'[x]? = vs[x]?))
  | _, _ => True

variable {cfg tc buf}

theorem G.count {d : Dialect} {cd : Bool} {n i j : Nat} {T T' : Seen} {ts : List Tree}
    (g : G d buf cd (.items n) i T (.trees ts) j T') : ts.length = n := by
  generalize hj : Job.items n = job at g
  generalize ho : Out.trees ts = out at g
  induction g generalizing n ts with
  | itemsNil => cases hj; cases ho; rfl
  | itemsCons _ _ _ ih => cases hj; cases ho; simp [ih rfl rfl]
  | _ => cases hj

theorem checkHash_comp {cd : Bool} {n i j : Nat} {T T' : Seen} {kts : List (Bytes × Tree)}
    (g : G goDialect buf cd (.pairs n) i T (.pairs kts) j T') (hi : i ≤ buf.length) (hn : n ≤ maxSize) (s : DState) :
    checkHash buf i n s = (.ok (), s) := by
  have hlen : i + 2 * n ≤ buf.length := by
    have := g.lt; simp only [Job.need] at this; have := this.2 hi; omega
  unfold checkHash
  have hneg : ¬ ((n : Int) < 0 ∨ (n : Int) > maxInt32) := by
    simp only [maxSize] at hn; simp only [maxInt32]; omega
  rw [D.bind_eq (D.failIf_pass hneg), Int.toNat_natCast]
  exact D.failIf_pass (by omega)

theorem hashTyped_comp {cd : Bool} {n i j : Nat} {kts : List (Bytes × Tree)}
    (ih : TComp cfg tc buf cd (.pairs n) i (.pairs kts) j) (hr : ∀ k t, (k, t) ∈ kts → NoRefs t)
    (f : Nat) (hf : need buf cd i ≤ f) (s : DState) (hc : s.Canon) (hcd : s.cd = cd) :
    ∀ ty cur, Takes cfg.view tc ty cur (.map kts) → ty ≠ .iface →
      ∃ s' v, hashTyped cfg tc buf (decodeTyped cfg tc buf f) i n ty cur .rw s = (.ok (j, v), s') ∧ s.Step s' ∧
        FillsS cfg.view tc s'.heap ty cur (.map kts) v := by
  obtain ⟨ih1, ih2⟩ := ih hr
  intro ty
  induction ty with
  | map e _ =>
    intro cur ht _
    obtain ⟨v0, ht⟩ := ht
    cases ht with
    | map h1 h2 h3 h4 h5 =>
      obtain ⟨s', kvs', r1, r2, r3, r4⟩ := ih1 e cur.entries h1 h2 (fun k t hk => by
        obtain ⟨v, hv⟩ := Option.isSome_iff_exists.1 (h3 k t hk)
        exact ⟨_, h4 k t v hk hv⟩) f hf s hc hcd
      refine ⟨s', .map kvs', ?_, r2, ?_⟩
      · rw [hashTyped]
        have : ∃ cur', orMake .rw cur.isZero (.map []) cur s = (.ok cur', s) ∧
            cur'.entries = cur.entries := by
          cases cur <;> exact ⟨_, rfl, rfl⟩
        obtain ⟨cur', e1, e2⟩ := this
        rw [D.bind_eq e1, e2, D.bind_eq r1]
        rfl
      · intro h' hg
        refine .map h1 h2 (fun k t hk => ?_) (fun k t v hk hv => ?_) r4
        · obtain ⟨v, hv, -⟩ := r3 k t hk
          rw [hv]; rfl
        · obtain ⟨v', hv', hfl⟩ := r3 k t hk
          rw [hv] at hv'; cases hv'
          exact hfl h' hg
    | undefMap _ h => rcases h with h | h <;> cases h
    | undef _ h => rcases h with h | h <;> cases h
  | strct id =>
    intro cur ht _
    obtain ⟨v0, ht⟩ := ht
    cases ht with
    | @strct _ _ _ vs0 h0 h1 h2 h3 h4 h5 h6 =>
      obtain ⟨s', vs', r1, r2, r3, r4, r5⟩ := ih2 (tc.types id).fields (cur.parts (tc.types id).fields.length) h0 h2
        (fun k t x f b hk hff hx hb => ⟨h4 k t x f hk hff hx, by
          have hlt := (List.getElem?_eq_some_iff.1 hx).1
          exact ⟨_, h3 k t x f b vs0[x] hk hff hx hb (List.getElem?_eq_getElem (by omega))⟩⟩)
        h5 f hf s hc hcd
      refine ⟨s', .multi vs', ?_, r2, ?_⟩
      · rw [hashTyped]
        dsimp only
        rw [D.bind_eq r1]
        rfl
      · intro h' hg
        exact .strct h0 (r3.trans h0) h2 (fun k t x f b v hk hff hx hb hv => r4 k t x f b v hk hff hx hb hv h' hg)
          h4 h5 r5
    | undef _ h => rcases h with h | h <;> cases h
  | ptr e ihe =>
    intro cur ht _
    have ht' := ht
    obtain ⟨v0, ht⟩ := ht
    cases ht with
    | ptr he h =>
      obtain ⟨s', v, r1, r2, r3⟩ := ihe cur.pointee ⟨_, h⟩ (by rintro rfl; cases he)
      refine ⟨s', .ptr v, ?_, r2, fun h' hg => .ptr he (r3 h' hg)⟩
      rw [hashTyped]
      have : ∃ cur', orMake .rw cur.isZero (.ptr .zero) cur s = (.ok cur', s) ∧
          cur'.pointee = cur.pointee := by
        cases cur <;> exact ⟨_, rfl, rfl⟩
      obtain ⟨cur', e1, e2⟩ := this
      rw [D.bind_eq e1, e2, show Acc.behind .rw = .rw from rfl, D.bind_eq r1]
      rfl
    | undefPtr _ h => rcases h with h | h <;> cases h
    | undef _ h => rcases h with h | h <;> cases h
  | iface => intro cur _ h; exact absurd rfl h
  | slice e _ =>
    intro cur ht _
    obtain ⟨v0, ht⟩ := ht
    cases ht with
    | undefSlice _ h => rcases h with h | h <;> cases h
    | undef _ h => rcases h with h | h <;> cases h
  | _ =>
    intro cur ht _
    obtain ⟨v0, ht⟩ := ht
    cases ht with
    | undef _ h => rcases h with h | h <;> cases h

theorem room_elems {n : Nat} {cur : TVal} (s : DState) :
    ∃ cur' : TVal, orMake .rw cur.elems.isEmpty (.slice (List.replicate n .zero)) cur s =
      (.ok cur', s) ∧ cur'.elems = cur.room n := by
  unfold TVal.room orMake
  by_cases h : cur.elems = []
  · rw [if_pos h, if_pos (by simp [h])]; exact ⟨_, rfl, rfl⟩
  · rw [if_neg h, if_neg (by simp [h])]; exact ⟨_, rfl, rfl⟩

theorem arrayTyped_comp {cd : Bool} {n i j : Nat} {T T' : Seen} {ts : List Tree}
    (g : G goDialect buf cd (.items n) i T (.trees ts) j T') (hi : i ≤ buf.length) (hn : n ≤ maxSize)
    (ih : TComp cfg tc buf cd (.items n) i (.trees ts) j) (hr : ∀ t ∈ ts, NoRefs t)
    (ty : Ty) (cur : TVal) (ht : Takes cfg.view tc ty cur (.arr ts)) (hty : ty ≠ .iface)
    (f : Nat) (hf : need buf cd i ≤ f) (s : DState) (hc : s.Canon) (hcd : s.cd = cd) :
    ∃ s' v, arrayTyped cfg buf (decodeTyped cfg tc buf f) i n ty cur .rw s = (.ok (j, v), s') ∧ s.Step s' ∧
        FillsS cfg.view tc s'.heap ty cur (.arr ts) v := by
  have ih := ih hr
  have hlen : i + n ≤ buf.length := by
    have := g.lt; simp only [Job.need] at this; have := this.2 hi; omega
  have hts : ts.length = n := g.count
  have hneg : ¬ ((n : Int) < 0 ∨ (n : Int) > maxInt32) := by
    simp only [maxSize] at hn; simp only [maxInt32]; omega
  unfold arrayTyped
  rw [D.bind_eq (D.failIf_pass hneg), Int.toNat_natCast, D.bind_eq (D.failIf_pass (by omega))]
  obtain ⟨v0, ht⟩ := ht
  cases ht with
  | iface => exact absurd rfl hty
  | ifaceNil => exact absurd rfl hty
  | @slice e _ _ vs0 h1 h2 h3 h4 =>
    obtain ⟨s', vs, r1, r2, r3, r4, r5⟩ := ih e (cur.room ts.length) (fun x t b hx hb => by
        have hlt := (List.getElem?_eq_some_iff.1 hb).1
        exact ⟨_, h2 x t b vs0[x] hx hb (List.getElem?_eq_getElem (by omega))⟩) h4 f hf s hc hcd
    refine ⟨s', .slice vs, ?_, r2, fun h' hg => .slice r3 (fun x t b v hx hb hv => r4 x t b v hx hb hv h' hg) r5 h4⟩
    dsimp only
    obtain ⟨cur', e1, e2⟩ := room_elems (n := n) (cur := cur) s
    rw [D.bind_eq e1, e2, ← hts]
    rw [hts] at r1 ⊢
    rw [show Acc.behind .rw = .rw from rfl, D.bind_eq r1]
    rfl
  | @arr m e _ _ vs0 h1 h2 h3 h4 =>
    obtain ⟨s', vs, r1, r2, r3, r4, r5⟩ := ih e (cur.parts m) (fun x t b hx hb => by
        have hlt := (List.getElem?_eq_some_iff.1 hb).1
        exact ⟨_, h2 x t b vs0[x] hx hb (List.getElem?_eq_getElem (by omega))⟩) h4 f hf s hc hcd
    refine ⟨s', .multi vs, ?_, r2, fun h' hg => .arr r3 (fun x t b v hx hb hv => r4 x t b v hx hb hv h' hg) r5 h4⟩
    dsimp only
    rw [show Acc.inner .rw = .rw from rfl, D.bind_eq r1]
    rfl
  | undefPtr _ h => rcases h with h | h <;> cases h
  | undefMap _ h => rcases h with h | h <;> cases h
  | undefSlice _ h => rcases h with h | h <;> cases h
  | undef _ h => rcases h with h | h <;> cases h

theorem freezeTyped_comp {cd isV : Bool} {i j j' : Nat} {T T' : Seen} {cls : Bytes} {t : Tree}
    (hlen : buf.length < 2 ^ 63) (hcls : ClassAt buf cd isV i cls j) (hsp : Span buf j [0x28, 0x2b] (j + 2))
    (g : G goDialect buf cd .item j T (.tree t) j' T') (ty : Ty) (cur : TVal)
    (ht : Takes cfg.view tc ty cur (.frz cls t)) (hty : ty ≠ .iface) (s : DState) (hc : s.Canon) (hcd : s.cd = cd) :
    ∃ s' v, freezeTyped cfg tc buf i ty cur .rw isV s = (.ok (j', v), s') ∧ s.Step s' ∧
        FillsS cfg.view tc s'.heap ty cur (.frz cls t) v := by
  -- up to the call of UnmarshalBinary
  have key : ∀ data, t = .ref (.arr [.bin data]) → cfg.perlCompat = false →
      ∃ s', s.Step s' ∧ freezeTyped cfg tc buf i ty cur .rw isV s = (do
        match ← unmarshalBinary tc ty cur .rw data with
        | some v => pure (j', v)
        | none =>
          if ty = .slice (.uint .uint8) ∧ cur.isZero then
            let v ← assign .rw (.slice (data.map .ofByte))
            pure (j', v)
          else D.err (.msg "can't unpack FROZEN object") : D (Nat × TVal)) s' := by
    rintro data rfl hpc
    unfold freezeTyped
    obtain ⟨s1, h1, e⟩ := decodeClassName_of hlen hcls s hcd
    rw [D.bind_eq h1]
    dsimp only
    have e0 : buf[j]? = some 0x28 := by
      have := getElem?_of_span hsp 0 (by simp); simpa using this
    have e1 : buf[j + 1]? = some 0x2b := by
      have := getElem?_of_span hsp 1 (by simp); simpa using this
    have hjl := (List.getElem?_eq_some_iff.mp e1).1
    obtain ⟨s2, v, h2, st, hsh⟩ := decodeFresh_comp (cfg := cfg) hlen g
      (.ref (.arr (by simp only [List.mem_singleton]; rintro t rfl; exact .bin)))
      (.ref (.arr (by simp only [List.mem_singleton]; rintro t rfl; exact .bin))) s1 (e.step.canon hc)
      (by rw [e.cd]; exact hcd)
    rw [D.bind_eq (D.failIf_pass (by omega)), D.bind_eq (byteAt_ok.2 ⟨e0, rfl⟩),
      D.bind_eq (byteAt_ok.2 ⟨e1, rfl⟩), D.bind_eq (D.failIf_pass (by decide)), D.bind_eq h2]
    have hsh := hsh s2.heap (Frame.refl _ _)
    cases hsh with
    | refP hc' => simp only [DCfg.view] at hc'; rw [hpc] at hc'; cases hc'
    | ref _ hsh =>
      cases hsh with
      | arr fv hc1 hc2 =>
        have hm : s2.heap.mem _ = .cell (fv 0) := hc1 0 (by simp)
        have hb := shows_bin .bin _ (hc2 0 _ rfl)
        rw [hb, Nat.add_zero] at hm
        refine ⟨s2, e.step.trans st, ?_⟩
        dsimp only
        rw [D.bind_eq (D.failIf_pass (by simp)), D.bind_eq (readLoc_apply _ _),
          (Ctx.cell _).read (hp := s2.heap) hm]
        dsimp only
        rw [if_neg (by rw [hpc]; simp)]
        rfl
  obtain ⟨v0, ht⟩ := ht
  cases ht with
  | iface => exact absurd rfl hty
  | ifaceNil => exact absurd rfl hty
  | @thaw id _ _ data u hp hu hn =>
    obtain ⟨s', st, hk⟩ := key data rfl hp
    refine ⟨s', .opaque data, ?_, st, fun h' _ => .thaw hp hu hn⟩
    rw [hk]
    have : unmarshalBinary tc (.strct id) cur .rw data s' = (.ok (some (.opaque data)), s') := by
      unfold unmarshalBinary
      dsimp only
      rw [if_neg (by simp), hu]
      dsimp only
      rw [hn]; rfl
    rw [D.bind_eq this]; rfl
  | @thawPtr id _ _ data u hp hu hn =>
    obtain ⟨s', st, hk⟩ := key data rfl hp
    refine ⟨s', .ptr (.opaque data), ?_, st, fun h' _ => .thawPtr hp hu hn⟩
    rw [hk]
    have : unmarshalBinary tc (.ptr (.strct id)) cur .rw data s' = (.ok (some (.ptr (.opaque data))), s') := by
      unfold unmarshalBinary
      dsimp only
      rw [if_neg (by simp), hu]
      dsimp only
      rw [hn]; rfl
    rw [D.bind_eq this]; rfl
  | @frozenBytes _ data hp =>
    obtain ⟨s', st, hk⟩ := key data rfl hp
    exact ⟨s', .slice (data.map .ofByte), by rw [hk]; rfl, st, fun h' _ => .frozenBytes hp⟩
  | undefPtr _ h => rcases h with h | h <;> cases h
  | undefMap _ h => rcases h with h | h <;> cases h
  | undefSlice _ h => rcases h with h | h <;> cases h
  | undef _ h => rcases h with h | h <;> cases h

/-- What follows the tag, once the item has been reached. -/
theorem item_comp {cd : Bool} {i k j : Nat} {b : UInt8} {t : Tree} {T T' : Seen} (hlen : buf.length < 2 ^ 63)
    (ht : TagAt buf i k b) (g : G goDialect buf cd .item i T (.tree t) j T')
    (ih : TComp cfg tc buf cd (.body (classify (b.toNat % 128))) (k + 1) (.tree t) j) :
    TComp cfg tc buf cd .item i (.tree t) j := by
  intro hr ty cur htk f hf s hc hcd
  have hk := ht.lt
  have hk' := ht.le
  have hf1 : need buf cd (k + 1) + 1 ≤ f := by unfold need at *; omega
  obtain ⟨f, rfl⟩ : ∃ f', f = f' + 1 := ⟨f - 1, by omega⟩
  rw [decodeTyped_succ, D.bind_eq (D.failIf_pass (by omega))]
  by_cases hty : ty = .iface
  · subst hty
    obtain ⟨v0, htk⟩ := htk
    have hcz : cur = .zero ∧ Supported cfg.view t := by
      cases htk with
      | iface h => exact ⟨rfl, h⟩
      | ifaceNil h => exact ⟨rfl, h⟩
      | ref h => exact absurd rfl h
      | weak _ h => exact absurd rfl h
      | obj _ h => exact absurd rfl h
      | undef _ _ h => exact absurd rfl h
    obtain ⟨rfl, hs⟩ := hcz
    obtain ⟨s', w, h1, st, hsh⟩ := decodeFresh_comp (cfg := cfg) hlen g hr hs s hc hcd
    rw [if_pos ⟨rfl, rfl⟩, D.bind_eq h1]
    dsimp only
    by_cases hw : w = .nil
    · subst hw
      rw [if_neg (by simp)]
      exact ⟨s', .zero, rfl, st, fun h' hg => .ifaceNil (hsh h' hg)⟩
    · rw [if_pos hw]
      exact ⟨s', .iface w, rfl, st, fun h' hg => .iface (hsh h' hg) hw⟩
  · rw [if_neg (by rintro ⟨h, -⟩; exact hty h), D.bind_eq (D.lift_ok.2 ⟨skipPad_ok.2 ht, rfl⟩)]
    dsimp only
    have ih := ih hr (by omega) (fun n hn => classify_num (by omega) hn) ty cur htk hty f (by omega) (b.toNat % 128)
    by_cases htr : 128 ≤ b.toNat
    · rw [if_pos htr]
      have e : trackTyped k s = (.ok (), { s with
          heap := (s.heap.alloc (.cell .unsupported)).2
          tracked := fun o => if o = k then some (.cell s.heap.next) else s.tracked o }) := rfl
      have st : s.Step { s with
          heap := (s.heap.alloc (.cell .unsupported)).2
          tracked := fun o => if o = k then some (.cell s.heap.next) else s.tracked o } :=
        ⟨Frame.alloc _ _ _, rfl⟩
      rw [D.bind_eq e]
      obtain ⟨s', v, h1, st', hv⟩ := ih _ (st.canon hc) (by rw [st.cd]; exact hcd)
      exact ⟨s', v, h1, st.trans st', hv⟩
    · rw [if_neg htr]
      exact ih s hc hcd

theorem transparent_comp {ty : Ty} {cur : TVal} {t : Tree} {m : D (Nat × TVal)} {j : Nat} {s : DState}
    (hw : ∀ S v, Fills cfg.view tc S ty cur t v → Fills cfg.view tc S ty cur t' v)
    (h : ∃ s' v, m s = (.ok (j, v), s') ∧ s.Step s' ∧ FillsS cfg.view tc s'.heap ty cur t v) :
    ∃ s' v, m s = (.ok (j, v), s') ∧ s.Step s' ∧ FillsS cfg.view tc s'.heap ty cur t' v := by
  obtain ⟨s', v, h1, h2, h3⟩ := h
  exact ⟨s', v, h1, h2, fun h' hg => hw _ _ (h3 h' hg)⟩

/-- Closing a scalar. -/
theorem scalar_comp {m : D TVal} {ty : Ty} {cur : TVal} {t : Tree} {j : Nat} {s s1 : DState} (st : s.Step s1)
    (h : ∀ S', ∃ v, m s1 = (.ok v, s1) ∧ Fills cfg.view tc S' ty cur t v) :
    ∃ s' v, (m >>= fun v => (pure (j, v) : D (Nat × TVal))) s1 = (.ok (j, v), s') ∧ s.Step s' ∧
      FillsS cfg.view tc s'.heap ty cur t v := by
  obtain ⟨v, h1, -⟩ := h (fun _ _ => False)
  refine ⟨s1, v, by rw [D.bind_eq h1]; rfl, st, fun h' _ => ?_⟩
  obtain ⟨v', h2, h3⟩ := h (Shows cfg.view h')
  rw [h1] at h2
  cases h2
  exact h3

theorem Takes.obj_inv {c : ViewCfg} {ty : Ty} {cur : TVal} {cls : Bytes} {t : Tree} (h : Takes c tc ty cur (.obj cls t))
    (hty : ty ≠ .iface) : c.perlCompat = false ∧ Takes c tc ty cur t := by
  obtain ⟨v, h⟩ := h
  cases h with
  | iface => exact absurd rfl hty
  | ifaceNil => exact absurd rfl hty
  | obj h1 _ h2 => exact ⟨h1, _, h2⟩
  | undefPtr _ h => rcases h with h | h <;> cases h
  | undefMap _ h => rcases h with h | h <;> cases h
  | undefSlice _ h => rcases h with h | h <;> cases h
  | undef _ h => rcases h with h | h <;> cases h

theorem Takes.weak_inv {c : ViewCfg} {ty : Ty} {cur : TVal} {t : Tree} (h : Takes c tc ty cur (.weak t))
    (hty : ty ≠ .iface) : c.perlCompat = false ∧ Takes c tc ty cur t := by
  obtain ⟨v, h⟩ := h
  cases h with
  | iface => exact absurd rfl hty
  | ifaceNil => exact absurd rfl hty
  | weak h1 _ h2 => exact ⟨h1, _, h2⟩
  | undefPtr _ h => rcases h with h | h <;> cases h
  | undefMap _ h => rcases h with h | h <;> cases h
  | undefSlice _ h => rcases h with h | h <;> cases h
  | undef _ h => rcases h with h | h <;> cases h

theorem Takes.ref_inv {c : ViewCfg} {ty : Ty} {cur : TVal} {t : Tree} (h : Takes c tc ty cur (.ref t))
    (hty : ty ≠ .iface) : Takes c tc ty cur t := by
  obtain ⟨v, h⟩ := h
  cases h with
  | iface => exact absurd rfl hty
  | ifaceNil => exact absurd rfl hty
  | ref _ h2 => exact ⟨_, h2⟩
  | undefPtr _ h => rcases h with h | h <;> cases h
  | undefMap _ h => rcases h with h | h <;> cases h
  | undefSlice _ h => rcases h with h | h <;> cases h
  | undef _ h => rcases h with h | h <;> cases h

theorem objectTyped_comp {cd isV : Bool} {i j j' : Nat} {cls : Bytes} {t : Tree}
    (hlen : buf.length < 2 ^ 63) (hcls : ClassAt buf cd isV i cls j)
    (ih : TComp cfg tc buf cd .item j (.tree t) j') (hr : NoRefs t) (ty : Ty) (cur : TVal)
    (ht : Takes cfg.view tc ty cur (.obj cls t)) (hty : ty ≠ .iface) (f : Nat) (hf : need buf cd i ≤ f) (s : DState)
    (hc : s.Canon) (hcd : s.cd = cd) :
    ∃ s' v, (do
        let p ← decodeClassName buf i isV
        if cfg.perlCompat then
          let a ← allocVar (.obj p.1 .nil)
          let v ← setPerl ty .rw (.ptr false a)
          let idx ← decode cfg buf (fuelFor buf.length) p.2 (.field a)
          pure (idx, v)
        else decodeTyped cfg tc buf f p.2 ty cur .rw : D (Nat × TVal)) s = (.ok (j', v), s') ∧ s.Step s' ∧
      FillsS cfg.view tc s'.heap ty cur (.obj cls t) v := by
  obtain ⟨hp, ht'⟩ := ht.obj_inv hty
  obtain ⟨s1, h1, e⟩ := decodeClassName_of hlen hcls s hcd
  rw [D.bind_eq h1]
  dsimp only
  rw [if_neg (by rw [show cfg.perlCompat = false from hp]; simp)]
  obtain ⟨s', v, r1, r2, r3⟩ := ih hr ty cur ht' f (Nat.le_trans (need_mono buf cd (Nat.le_of_lt hcls.lt)) hf) s1
    (e.step.canon hc) (by rw [e.cd]; exact hcd)
  exact ⟨s', v, r1, e.step.trans r2, fun h' hg => .obj hp hty (r3 h' hg)⟩

theorem stringish_comp (hlen : buf.length < 2 ^ 63) {cd : Bool} {i j : Nat} {k : Bytes}
    (hk : Strish goDialect buf cd i k j) (s : DState) (hcd : s.cd = cd) :
    ∃ s', decodeStringish buf i s = (.ok (k, j), s') ∧ s.Eqv s' := by
  subst hcd
  obtain ⟨s', h⟩ := decodeStringish_of (Nat.le_of_lt hlen) hk
  exact ⟨s', h, (decodeStringish_ok h).2.1⟩

theorem typed_complete (hlen : buf.length < 2 ^ 63) {cd : Bool} {job : Job} {i : Nat} {T : Seen} {out : Out} {j : Nat}
    {T' : Seen} (g : G goDialect buf cd job i T out j T') : TComp cfg tc buf cd job i out j := by
  induction g with
  | @plain cd i k b T t j T' ht hb g ih =>
    exact item_comp hlen ht (.plain ht hb g) (by rwa [show b.toNat % 128 = b.toNat by omega])
  | @tracked cd i k b T t j T' ht hb g ih =>
    have := b.toNat_lt
    exact item_comp hlen ht (.tracked ht hb g) (by rwa [show b.toNat % 128 = b.toNat - 128 by omega])
  | @int cd i T n =>
    intro _ _ _ ty cur ⟨v0, ht⟩ hty f hf tag s hc hcd
    unfold typedC
    refine scalar_comp (.refl _) (fun S' => setInt_comp ht hty ?_ s)
    rw [int64_ofInt_toInt, bmod_eq]
    split <;> omega
  | @varint cd i T n j hv =>
    intro _ _ _ ty cur ⟨v0, ht⟩ hty f hf tag s hc hcd
    unfold typedC
    dsimp only
    obtain ⟨e, h64, hj⟩ := varintAt_of hv s
    rw [D.bind_eq e]
    dsimp only
    rw [hj]
    refine scalar_comp (.refl _) (fun S' => setInt_comp ht hty ?_ s)
    unfold sgn
    rw [int64_ofInt_toInt, BitVec.toInt_eq_toNat_bmod, BitVec.toNat_ofNat, Nat.mod_eq_of_lt h64]
    simp only [bmod_eq, Nat.reducePow, Int.reducePow]
    split <;> split <;> omega
  | @zigzag cd i T n j z hv hz =>
    intro _ _ _ ty cur ⟨v0, ht⟩ hty f hf tag s hc hcd
    unfold typedC
    dsimp only
    obtain ⟨e, h64, hj⟩ := varintAt_of hv s
    rw [D.bind_eq e]
    dsimp only
    rw [hj]
    refine scalar_comp (.refl _) (fun S' => setInt_comp ht hty ?_ s)
    simp only [goDialect, Option.some.injEq] at hz
    rw [zigzag_toInt h64, hz]
    simp
  | float hs hl =>
    intro _ _ _ ty cur ⟨v0, ht⟩ hty f hf tag s hc hcd
    unfold typedC
    dsimp only
    rw [D.bind_eq (decodeFloat_of s hs hl)]
    exact scalar_comp (.refl _) (fun S' => setFloat32_comp ht hty s)
  | double hs hl =>
    intro _ _ _ ty cur ⟨v0, ht⟩ hty f hf tag s hc hcd
    unfold typedC
    dsimp only
    rw [D.bind_eq (decodeDouble_of s hs hl)]
    exact scalar_comp (.refl _) (fun S' => setFloat64_comp ht hty s)
  | true_ =>
    intro _ _ _ ty cur ⟨v0, ht⟩ hty f hf tag s hc hcd
    unfold typedC
    exact scalar_comp (.refl _) (fun S' => setBool_comp ht hty s)
  | false_ =>
    intro _ _ _ ty cur ⟨v0, ht⟩ hty f hf tag s hc hcd
    unfold typedC
    exact scalar_comp (.refl _) (fun S' => setBool_comp ht hty s)
  | undef =>
    intro _ _ _ ty cur ⟨v0, ht⟩ hty f hf tag s hc hcd
    unfold typedC
    exact scalar_comp (.refl _) (fun S' => undef_comp rfl false (.inl rfl) ht hty s)
  | cundef =>
    intro _ _ _ ty cur ⟨v0, ht⟩ hty f hf tag s hc hcd
    unfold typedC
    exact scalar_comp (.refl _) (fun S' => undef_comp rfl true (.inr rfl) ht hty s)
  | binary hv hn hs hl =>
    intro _ _ _ ty cur ⟨v0, ht⟩ hty f hf tag s hc hcd
    unfold typedC
    dsimp only
    obtain ⟨e, h64, hj⟩ := varintAt_of hv s
    rw [D.bind_eq e]
    dsimp only
    rw [hj, D.bind_eq ((decodeBinary_ok hv.le_length h64).2 ⟨hn, hs, hl, rfl⟩)]
    exact scalar_comp ⟨Frame.refl _ _, rfl⟩ (fun S' => setBinary_comp ht hty _)
  | strUtf8 hv hn hs hl =>
    intro _ _ _ ty cur ⟨v0, ht⟩ hty f hf tag s hc hcd
    unfold typedC
    dsimp only
    obtain ⟨e, h64, hj⟩ := varintAt_of hv s
    rw [D.bind_eq e]
    dsimp only
    rw [hj, D.bind_eq ((decodeBinary_ok hv.le_length h64).2 ⟨hn, hs, hl, rfl⟩)]
    exact scalar_comp ⟨Frame.refl _ _, rfl⟩ (fun S' => setString_comp ht hty _)
  | @short cd i T n b j hs hl =>
    intro _ hi hb ty cur ⟨v0, ht⟩ hty f hf tag s hc hcd
    have hn := hb _ (Or.inl rfl)
    unfold typedC
    dsimp only
    rw [← sgn_small (n := n) (by omega),
      D.bind_eq ((decodeBinary_ok hi (by omega)).2 ⟨by simp only [maxSize]; omega, hs, hl, rfl⟩)]
    exact scalar_comp ⟨Frame.refl _ _, rfl⟩ (fun S' => setBinary_comp ht hty _)
  | hash hv hn g ih =>
    intro hr _ _ ty cur ht hty f hf tag s hc hcd
    cases hr with
    | map hr =>
    unfold typedC
    dsimp only
    obtain ⟨e, h64, hj⟩ := varintAt_of hv s
    rw [D.bind_eq e]
    dsimp only
    rw [hj, sgn_small (by simp only [maxSize] at hn; omega), D.bind_eq (checkHash_comp g hv.le_length hn s),
      Int.toNat_natCast]
    exact hashTyped_comp ih hr f (Nat.le_trans (need_mono buf _ (Nat.le_of_lt hv.lt)) hf) s hc hcd ty cur ht hty
  | @hashref cd i T n kvs j T' g ih =>
    intro hr hi hb ty cur ht hty f hf tag s hc hcd
    cases hr with
    | ref hr =>
    cases hr with
    | map hr =>
    have hn := hb n (Or.inr (Or.inr rfl))
    unfold typedC
    dsimp only
    rw [D.bind_eq (checkHash_comp g hi (by simp only [maxSize]; omega) s)]
    exact transparent_comp (fun S v h => .ref hty h)
      (hashTyped_comp ih hr f hf s hc hcd ty cur (ht.ref_inv hty) hty)
  | array hv hn g ih =>
    intro hr _ _ ty cur ht hty f hf tag s hc hcd
    cases hr with
    | arr hr =>
    unfold typedC
    dsimp only
    obtain ⟨e, h64, hj⟩ := varintAt_of hv s
    rw [D.bind_eq e]
    dsimp only
    rw [hj, sgn_small (by simp only [maxSize] at hn; omega)]
    exact arrayTyped_comp g hv.le_length hn ih hr ty cur ht hty f
      (Nat.le_trans (need_mono buf _ (Nat.le_of_lt hv.lt)) hf) s hc hcd
  | @arrayref cd i T n ts j T' g ih =>
    intro hr hi hb ty cur ht hty f hf tag s hc hcd
    cases hr with
    | ref hr =>
    cases hr with
    | arr hr =>
    have hn := hb n (Or.inr (Or.inl rfl))
    unfold typedC
    exact transparent_comp (fun S v h => .ref hty h)
      (arrayTyped_comp g hi (by simp only [maxSize]; omega) ih hr ty cur (ht.ref_inv hty) hty f hf s hc hcd)
  | refn g ih =>
    intro hr _ _ ty cur ht hty f hf tag s hc hcd
    cases hr with
    | ref hr =>
    unfold typedC
    exact transparent_comp (fun S v h => .ref hty h) (ih hr ty cur (ht.ref_inv hty) f hf s hc hcd)
  | refp => intro hr; cases hr
  | refpOpen => intro hr; cases hr
  | alias => intro hr; cases hr
  | aliasOpen => intro hr; cases hr
  | @copy i T o j t j' T' _ hv ho g ih =>
    intro hr hi _ ty cur ht hty f hf tag s hc hcd
    unfold typedC
    dsimp only
    have hcd0 : ¬ s.copyDepth > 0 := by simpa [DState.cd] using hcd
    obtain ⟨e, h64, hj⟩ := varintAt_of hv s
    rw [D.bind_eq (D.get_apply _), D.bind_eq (D.failIf_pass hcd0), D.bind_eq e]
    dsimp only
    rw [hj, sgn_small (by omega), D.bind_eq (D.failIf_pass (by omega)), Int.toNat_natCast]
    obtain ⟨s1, v, h1, st, hv⟩ := ih hr ty cur ht f
      (by unfold need at *; simp only [if_true] at *; rw [if_neg (by simp)] at hf; omega)
      { s with copyDepth := s.copyDepth + 1 } hc (by simp [DState.cd])
    rw [D.bind_eq (withCopy_ok.2 ⟨s1, h1, rfl⟩)]
    refine ⟨_, v, rfl, ⟨st.grow, ?_⟩, hv⟩
    have := st.depth
    dsimp only at this ⊢
    omega
  | weaken g ih =>
    intro hr _ _ ty cur ht hty f hf tag s hc hcd
    cases hr with
    | weak hr =>
    obtain ⟨hp, ht'⟩ := ht.weak_inv hty
    unfold typedC
    dsimp only
    rw [if_neg (by rw [show cfg.perlCompat = false from hp]; simp)]
    exact transparent_comp (fun S v h => .weak hp hty h) (ih hr ty cur ht' f hf s hc hcd)
  | regexp hp hm =>
    intro _ _ _ ty cur ⟨v0, ht⟩ hty f hf tag s hc hcd
    cases ht with
    | iface => exact absurd rfl hty
    | ifaceNil => exact absurd rfl hty
    | undefPtr _ h => rcases h with h | h <;> cases h
    | undefMap _ h => rcases h with h | h <;> cases h
    | undefSlice _ h => rcases h with h | h <;> cases h
    | undef _ h => rcases h with h | h <;> cases h
  | object hcl g ih =>
    intro hr _ _ ty cur ht hty f hf tag s hc hcd
    cases hr with
    | obj hr =>
    exact objectTyped_comp (isV := false) hlen (Or.inl ⟨rfl, hcl⟩) ih hr ty cur ht hty f hf s hc hcd
  | objectv hv ho hcl g ih =>
    intro hr _ _ ty cur ht hty f hf tag s hc hcd
    cases hr with
    | obj hr =>
    exact objectTyped_comp (isV := true) hlen (Or.inr ⟨rfl, _, _, hv, ho.1, hcl⟩) ih hr ty cur ht hty f hf s hc hcd
  | freeze hcl hsp g ih =>
    intro _ _ _ ty cur ht hty f hf tag s hc hcd
    exact freezeTyped_comp (isV := false) hlen (Or.inl ⟨rfl, hcl⟩) hsp g ty cur ht hty s hc hcd
  | freezev hv ho hcl hsp g ih =>
    intro _ _ _ ty cur ht hty f hf tag s hc hcd
    exact freezeTyped_comp (isV := true) hlen (Or.inr ⟨rfl, _, _, hv, ho.1, hcl⟩) hsp g ty cur ht hty s hc hcd
  | itemsNil =>
    intro _ e base _ _ f hf s hc hcd
    refine ⟨s, base, ?_, .refl _, rfl, ?_, fun _ _ => rfl⟩
    · cases base <;> rfl
    · intro x t b v hx; simp at hx
  | @itemsCons cd n i T t j T' ts j' T'' g1 g2 ih1 ih2 =>
    intro hr e base h1 h2 f hf s hc hcd
    have hr1 := hr t (List.mem_cons_self ..)
    have hr2 : ∀ u ∈ ts, NoRefs u := fun u hu => hr u (List.mem_cons_of_mem _ hu)
    have hij : i < j := by have := g1.lt; simp only [Job.need] at this; omega
    have hf2 : need buf cd j ≤ f := Nat.le_trans (need_mono buf cd (Nat.le_of_lt hij)) hf
    cases base with
    | nil =>
      obtain ⟨s1, v, r1, st1, -⟩ := decodeFresh_comp (cfg := cfg) hlen g1 hr1 (h2 0 t (by simp) rfl) s hc hcd
      obtain ⟨s2, vs, r2, st2, hl, -, -⟩ := ih2 hr2 e [] (by intro x t b _ hb; simp at hb)
        (fun x u _ hu => h2 (x + 1) u (by simp) (by simpa using hu)) f hf2 s1 (st1.canon hc)
        (by rw [st1.cd]; exact hcd)
      have hvs : vs = [] := List.length_eq_zero_iff.1 hl
      subst hvs
      refine ⟨s2, [], ?_, st1.trans st2, rfl, ?_, fun _ _ => rfl⟩
      · rw [elemsLoop, D.bind_eq r1]; exact r2
      · intro x t b v _ hb; simp at hb
    | cons b base =>
      obtain ⟨s1, v, r1, st1, hv1⟩ := ih1 hr1 e b (h1 0 t b rfl rfl) f hf s hc hcd
      obtain ⟨s2, vs, r2, st2, hl, hfl, hrest⟩ := ih2 hr2 e base
        (fun x u b' hu hb => h1 (x + 1) u b' (by simpa using hu) (by simpa using hb))
        (fun x u hx hu => h2 (x + 1) u (by simpa using hx) (by simpa using hu)) f hf2 s1 (st1.canon hc)
        (by rw [st1.cd]; exact hcd)
      refine ⟨s2, v :: vs, ?_, st1.trans st2, by simp [hl], ?_, ?_⟩
      · rw [elemsLoop, D.bind_eq r1]
        dsimp only
        rw [D.bind_eq r2]; rfl
      · intro x u b' v' hu hb hv'
        cases x with
        | zero =>
          simp only [List.getElem?_cons_zero, Option.some.injEq] at hu hb hv'
          subst hu hb hv'
          exact hv1.mono st2.grow
        | succ x => exact hfl x u b' v' (by simpa using hu) (by simpa using hb) (by simpa using hv')
      · intro x hx
        cases x with
        | zero => simp at hx
        | succ x => simpa using hrest x (by simpa using hx)
  | pairsNil =>
    intro _
    refine ⟨?_, ?_⟩
    · intro e kvs _ _ _ f hf s hc hcd
      refine ⟨s, kvs, rfl, .refl _, ?_, fun _ _ => rfl⟩
      intro k t hk; simp at hk
    · intro fs vs _ _ _ _ f hf s hc hcd
      refine ⟨s, vs, rfl, .refl _, rfl, ?_, fun _ _ => rfl⟩
      intro k t x f b v hk; simp at hk
  | @pairsCons cd n i T k x t j T' kts j' T'' hk g1 g2 ih1 ih2 =>
    intro hr
    have hr1 := hr k t (List.mem_cons_self ..)
    obtain ⟨ih2m, ih2s⟩ := ih2 (fun k' u hu => hr k' u (List.mem_cons_of_mem _ hu))
    have hix : i < x := hk.lt.1
    have hxj : x < j := by have := g1.lt; simp only [Job.need] at this; omega
    refine ⟨?_, ?_⟩
    · intro e kvs hnd hnew htk f hf s hc hcd
      obtain ⟨s0, r0, e0⟩ := stringish_comp hlen hk s hcd
      have hc0 := e0.step.canon hc
      have hcd0 : s0.cd = cd := by rw [e0.cd]; exact hcd
      have hfx : need buf cd x ≤ f := Nat.le_trans (need_mono buf cd (Nat.le_of_lt hix)) hf
      obtain ⟨s1, v, r1, st1, hv1⟩ := ih1 hr1 e .zero (htk k t (List.mem_cons_self ..)) f hfx s0 hc0 hcd0
      have hnd' : k ∉ kts.map Prod.fst ∧ (kts.map Prod.fst).Nodup := List.nodup_cons.1 hnd
      obtain ⟨s2, kvs2, r2, st2, hfl, hrest⟩ := ih2m e (mapInsert k v kvs) hnd'.2
        (fun k' hk' => by
          rw [mapLookup_insert, if_neg (by rintro rfl; exact hnd'.1 hk')]
          exact hnew k' (List.mem_cons_of_mem _ hk'))
        (fun k' u hu => htk k' u (List.mem_cons_of_mem _ hu)) f
        (Nat.le_trans (need_mono buf cd (Nat.le_of_lt hxj)) hfx) s1 (st1.canon hc0) (by rw [st1.cd]; exact hcd0)
      refine ⟨s2, kvs2, ?_, (e0.step.trans st1).trans st2, ?_, ?_⟩
      · rw [entriesLoop, D.bind_eq r0]
        dsimp only
        rw [hnew k (List.mem_cons_self ..)]
        dsimp only
        rw [D.bind_eq r1]
        dsimp only
        rw [D.bind_eq (D.failIf_pass (by simp))]
        exact r2
      · intro k' u hu
        rcases List.mem_cons.1 hu with h | hu
        · cases h
          refine ⟨v, ?_, hv1.mono st2.grow⟩
          rw [hrest k hnd'.1, mapLookup_insert, if_pos rfl]
        · exact hfl k' u hu
      · intro k' hk'
        simp only [List.map_cons, List.mem_cons, not_or] at hk'
        rw [hrest k' hk'.2, mapLookup_insert, if_neg hk'.1]
    · intro fs vs hlen' hpw htk hsup f hf s hc hcd
      obtain ⟨s0, r0, e0⟩ := stringish_comp hlen hk s hcd
      have hc0 := e0.step.canon hc
      have hcd0 : s0.cd = cd := by rw [e0.cd]; exact hcd
      have hfx : need buf cd x ≤ f := Nat.le_trans (need_mono buf cd (Nat.le_of_lt hix)) hf
      have hfj : need buf cd j ≤ f := Nat.le_trans (need_mono buf cd (Nat.le_of_lt hxj)) hfx
      have hpw' := List.pairwise_cons.1 hpw
      rcases fieldFor_or tc fs k with ⟨y, hy⟩ | hno
      · obtain ⟨fl, hfl⟩ := hy.field
        have hylt := (List.getElem?_eq_some_iff.1 hfl).1
        have hb : vs[y]? = some vs[y] := List.getElem?_eq_getElem (by omega)
        obtain ⟨hex, htt⟩ := htk k t y fl _ (List.mem_cons_self ..) hy hfl hb
        obtain ⟨s1, v, r1, st1, hv1⟩ := ih1 hr1 fl.ty _ htt f hfx s0 hc0 hcd0
        have hother : ∀ k' u, (k', u) ∈ kts → ∀ z, FieldFor tc fs k' z → z ≠ y := by
          rintro k' u hu z hz rfl
          exact hpw'.1 (k', u) hu z hy hz
        obtain ⟨s2, vs2, r2, st2, hl2, hfl2, hrest⟩ := ih2s fs (vs.set y v) (by simpa using hlen') hpw'.2
          (fun k' u z g b hu hz hg hb' => by
            rw [List.getElem?_set_ne (Ne.symm (hother k' u hu z hz))] at hb'
            exact htk k' u z g b (List.mem_cons_of_mem _ hu) hz hg hb')
          (fun k' u hu hz => hsup k' u (List.mem_cons_of_mem _ hu) hz) f hfj s1 (st1.canon hc0)
          (by rw [st1.cd]; exact hcd0)
        refine ⟨s2, vs2, ?_, (e0.step.trans st1).trans st2, by simpa using hl2, ?_, ?_⟩
        · rw [fieldsLoop, D.bind_eq r0]
          dsimp only
          rw [findField_some hy]
          dsimp only
          rw [hfl]
          dsimp only
          rw [show Acc.field .rw fl.exported = .rw by rw [hex]; rfl, List.getD_eq_getElem?_getD, hb]
          dsimp only [Option.getD_some]
          rw [D.bind_eq r1]
          exact r2
        · intro k' u z g b v' hu hz hg hb' hv'
          rcases List.mem_cons.1 hu with h | hu
          · cases h
            cases hy.unique hz
            rw [hfl] at hg; cases hg
            rw [hb] at hb'; cases hb'
            rw [hrest y (fun k' hk' hz' => by
                obtain ⟨⟨k2, u⟩, hu, rfl⟩ := List.mem_map.1 hk'
                exact hother k2 u hu y hz' rfl),
              List.getElem?_set_self (by omega)] at hv'
            cases hv'
            exact hv1.mono st2.grow
          · exact hfl2 k' u z g b v' hu hz hg (by
              rw [List.getElem?_set_ne (Ne.symm (hother k' u hu z hz))]; exact hb') hv'
        · intro z hz
          rw [hrest z (fun k' hk' => hz k' (List.mem_cons_of_mem _ hk')),
            List.getElem?_set_ne (by rintro rfl; exact hz k (List.mem_cons_self ..) hy)]
      · obtain ⟨s1, v, r1, st1, -⟩ := decodeFresh_comp (cfg := cfg) hlen g1 hr1
          (hsup k t (List.mem_cons_self ..) hno) s0 hc0 hcd0
        obtain ⟨s2, vs2, r2, st2, hl2, hfl2, hrest⟩ := ih2s fs vs hlen' hpw'.2
          (fun k' u z g b hu => htk k' u z g b (List.mem_cons_of_mem _ hu))
          (fun k' u hu hz => hsup k' u (List.mem_cons_of_mem _ hu) hz) f hfj s1 (st1.canon hc0)
          (by rw [st1.cd]; exact hcd0)
        refine ⟨s2, vs2, ?_, (e0.step.trans st1).trans st2, hl2, ?_, ?_⟩
        · rw [fieldsLoop, D.bind_eq r0]
          dsimp only
          rw [findField_none hno]
          dsimp only
          rw [D.bind_eq r1]
          exact r2
        · intro k' u z g b v' hu hz
          rcases List.mem_cons.1 hu with h | hu
          · cases h; exact absurd hz (hno z)
          · exact hfl2 k' u z g b v' hu hz
        · intro z hz
          exact hrest z (fun k' hk' => hz k' (List.mem_cons_of_mem _ hk'))

end

end Sereal
