import Verif.Proof.SoundDecode
import Verif.Proof.Gram
import Verif.Spec.Support
/-
Every item of the grammar (Go dialect) whose tree can be represented is decoded.
-/
namespace Sereal

theorem shows_nil {c : ViewCfg} {h : Heap} {v : Val} {t : Tree} (hs : Shows c h v t)
    (hv : v = .nil) (hsup : Supported c t) : ShowsNil c t := by
  induction hs with
  | undef h => exact .undef h
  | cundef h => exact .cundef h
  | ref h _ ih => cases hsup with | ref hs => exact .ref h (ih hv hs)
  | refpI h _ ih => cases hsup with | refp hs _ => exact .refp h (ih hv hs)
  | alias _ ih => cases hsup with | alias hs => exact .alias (ih hv hs)
  | openRef => cases hsup
  | weak h _ ih => cases hsup with | weak hs => exact .weak h (ih hv hs)
  | obj h _ ih => cases hsup with | obj hs => exact .obj h (ih hv hs)
  | _ => cases hv

theorem not_showsNil {c : ViewCfg} {t : Tree} (hc : c.perlCompat = true) (hs : Supported c t)
    (hn : ShowsNil c t) : False := by
  induction hn with
  | undef h => rw [hc] at h; cases h
  | cundef h => rw [hc] at h; cases h
  | ref h => rw [hc] at h; cases h
  | weak h => rw [hc] at h; cases h
  | obj h => rw [hc] at h; cases h
  | refp h h' => cases hs with | refp _ hn => exact hn h'
  | alias _ ih => cases hs with | alias hs => exact ih hs

theorem shows_bin {c : ViewCfg} {h : Heap} {data : Bytes} {t : Tree} (hb : ShowsBin c data t) :
    ∀ v, Shows c h v t → v = .bin data := by
  induction hb with
  | bin => intro v hs; cases hs; rfl
  | ref hc _ ih =>
    intro v hs
    cases hs with
    | ref _ hs => exact ih v hs
    | refP hc' => rw [hc] at hc'; cases hc'
  | weak hc _ ih =>
    intro v hs
    cases hs with
    | weak _ hs => exact ih v hs
    | weakP hc' => rw [hc] at hc'; cases hc'
  | obj hc _ ih =>
    intro v hs
    cases hs with
    | obj _ hs => exact ih v hs
    | objP hc' => rw [hc] at hc'; cases hc'
  | refp hc _ ih =>
    intro v hs
    cases hs with
    | refpI _ hs => exact ih v hs
    | refp hc' => rw [hc] at hc'; cases hc'
  | alias _ ih =>
    intro v hs
    cases hs with
    | alias hs => exact ih v hs

section
variable (cfg : DCfg) (buf : Bytes)

/-- Fuel that is enough from position `i` on. -/
def need (cd : Bool) (i : Nat) : Nat := (buf.length + 1 - i) + if cd then 0 else buf.length + 1

theorem need_mono (cd : Bool) {i i' : Nat} (h : i ≤ i') : need buf cd i' ≤ need buf cd i := by
  unfold need; omega

/-- What a run does on each kind of job. -/
def Comp (cd : Bool) (job : Job) (i : Nat) (T : Seen) (out : Out) (j : Nat) (T' : Seen) : Prop :=
  match job, out with
  | .item, .tree t => Supported cfg.view t → ∀ f, need buf cd i ≤ f → ∀ s F loc K,
      Pre cfg.view s T F loc K .nil → s.cd = cd →
      ∃ s', decode cfg buf f i loc s = (.ok j, s') ∧ Done cfg.view s T F loc K t s' T'
  | .body tc, .tree t => Supported cfg.view t → i ≤ buf.length →
      (∀ n, tc = .short n ∨ tc = .arrayref n ∨ tc = .hashref n → n < 32) →
      ∀ f, need buf cd i ≤ f → ∀ trackme tag s F loc K, Pre cfg.view s T F loc K .nil → s.cd = cd →
      ∃ s', decodeC cfg buf (decode cfg buf f) tc trackme i loc tag s = (.ok j, s')
  | .items n, .trees ts => (∀ t ∈ ts, Supported cfg.view t) → ∀ f, need buf cd i ≤ f → ∀ s F a,
      Inv cfg.view s T F → a + n ≤ s.heap.next →
      (∀ x, a ≤ x → x < a + n → ¬ F x ∧ s.heap.mem x = .cell .nil) → s.cd = cd →
      ∃ s', arrayLoop (decode cfg buf f) n a i s = (.ok j, s')
  | .pairs n, .pairs kvs => (∀ k t, (k, t) ∈ kvs → Supported cfg.view t) → ∀ f, need buf cd i ≤ f → ∀ s F m,
      Inv cfg.view s T F → m < s.heap.next → ¬ F m → (∃ es, s.heap.mem m = .mp es) → s.cd = cd →
      ∃ s', hashLoop buf (decode cfg buf f) m n i s = (.ok j, s')
  | _, _ => True

variable {cfg buf}

theorem varintAt_of {i n j : Nat} (hv : Vint goDialect buf i n j) (s : DState) :
    varintAt buf i s = (.ok (sgn n, j - i), s) ∧ n < 2 ^ 64 ∧ i + (j - i) = j := by
  have hlt := hv.lt
  have h64 : n < 2 ^ 64 := by
    obtain ⟨v, -, -, -, h4⟩ := hv
    exact Dialect.Le.refl_go.range _ _ h4
  refine ⟨varintAt_ok_iff.2 ⟨rfl, n, ?_, rfl, h64⟩, h64, by omega⟩
  rwa [show i + (j - i) = j by omega]

theorem decodeHash_comp {cd : Bool} {n i j : Nat} {T T' : Seen} {kvs : List (Bytes × Tree)}
    (g : G goDialect buf cd (.pairs n) i T (.pairs kvs) j T') (hi : i ≤ buf.length)
    (ih : Comp cfg buf cd (.pairs n) i T (.pairs kvs) j T') (hn : n ≤ maxSize)
    (hsup : ∀ k t, (k, t) ∈ kvs → Supported cfg.view t) (isRef : Bool) :
    ∀ f, need buf cd i ≤ f → ∀ s F loc K, Pre cfg.view s T F loc K .nil → s.cd = cd →
      ∃ s', decodeHash buf (decode cfg buf f) i n loc isRef s = (.ok j, s') := by
  have ih := ih hsup
  intro f hf s F loc K p hcd
  have hlen : i + 2 * n ≤ buf.length := by
    have := g.lt; simp only [Job.need] at this; have := this.2 hi; omega
  unfold decodeHash
  have hneg : ¬ ((n : Int) < 0 ∨ (n : Int) > maxInt32) := by
    simp only [maxSize] at hn; simp only [maxInt32]; omega
  rw [D.bind_eq (D.failIf_pass hneg), Int.toNat_natCast, D.bind_eq (D.failIf_pass (by omega)),
    D.bind_eq (charge_apply _ _), D.bind_eq (allocObj_apply _ _)]
  have hlt := p.lt
  have key : ∀ (hp : Heap) (al pk : Nat), Frame (· = loc.addr) (s.heap.alloc (.mp [])).2 hp →
      ∃ s', hashLoop buf (decode cfg buf f) s.heap.next n i
        { s with heap := hp, alloc := al, peak := pk } = (.ok j, s') := by
    intro hp al pk fr
    have f0 : Frame (· = loc.addr) s.heap hp :=
      (Frame.alloc _ s.heap _).trans fr (fun _ _ h => h)
    have hnext : s.heap.next + 1 ≤ hp.next := by
      have := fr.next; rwa [Heap.alloc_next] at this
    refine ih f hf _ F _ (p.inv.frame f0 ?_ rfl) (by dsimp only; omega) ?_ ⟨[], ?_⟩ hcd
    · rintro a ha rfl; exact p.free ha
    · intro hc; have := p.inv.lt _ hc; omega
    · dsimp only
      rw [fr.same _ (by rw [Heap.alloc_next]; omega) (by omega), Heap.alloc_mem]
  by_cases hr : isRef = true
  · rw [if_pos hr, D.bind_eq (allocVar_apply _ _), D.bind_eq (writeLoc_apply _ _ _)]
    exact key _ _ _ ((Frame.alloc _ _ _).trans (Frame.write _ loc _) (fun _ _ h => h))
  · rw [if_neg hr, D.bind_eq (writeLoc_apply _ _ _)]
    exact key _ _ _ (Frame.write _ loc _)

theorem decodeArray_comp {cd : Bool} {n i j : Nat} {T T' : Seen} {ts : List Tree}
    (g : G goDialect buf cd (.items n) i T (.trees ts) j T') (hi : i ≤ buf.length)
    (ih : Comp cfg buf cd (.items n) i T (.trees ts) j T') (hn : n ≤ maxSize)
    (hsup : ∀ t ∈ ts, Supported cfg.view t) (isRef : Bool) :
    ∀ f, need buf cd i ≤ f → ∀ s F loc K, Pre cfg.view s T F loc K .nil → s.cd = cd →
      ∃ s', decodeArray buf (decode cfg buf f) i n loc isRef s = (.ok j, s') := by
  have ih := ih hsup
  intro f hf s F loc K p hcd
  have hlen : i + n ≤ buf.length := by
    have := g.lt; simp only [Job.need] at this; have := this.2 hi; omega
  unfold decodeArray
  have hneg : ¬ ((n : Int) < 0 ∨ (n : Int) > maxInt32) := by
    simp only [maxSize] at hn; simp only [maxInt32]; omega
  rw [D.bind_eq (D.failIf_pass hneg), Int.toNat_natCast, D.bind_eq (D.failIf_pass (by omega)),
    D.bind_eq (charge_apply _ _), D.bind_eq (allocSlice_apply _ _)]
  have hlt := p.lt
  have key : ∀ (hp : Heap) (al pk : Nat), Frame (· = loc.addr) (s.heap.allocCells n).2 hp →
      ∃ s', arrayLoop (decode cfg buf f) n s.heap.next i
        { s with heap := hp, alloc := al, peak := pk } = (.ok j, s') := by
    intro hp al pk fr
    have f0 : Frame (· = loc.addr) s.heap hp :=
      (Frame.allocCells _ s.heap n).trans fr (fun _ _ h => h)
    have hnext : s.heap.next + max n 1 ≤ hp.next := by
      have := fr.next; simpa [Heap.allocCells] using this
    refine ih f hf _ F _ (p.inv.frame f0 ?_ rfl) (by dsimp only; omega) ?_ hcd
    · rintro a ha rfl; exact p.free ha
    · intro x hx hx'
      refine ⟨fun hc => by have := p.inv.lt x hc; omega, ?_⟩
      dsimp only
      rw [fr.same x (by simp only [Heap.allocCells]; omega) (by omega)]
      simp only [Heap.allocCells]
      rw [if_pos (by omega)]
  by_cases hr : isRef = true
  · rw [if_pos hr, D.bind_eq (allocVar_apply _ _), D.bind_eq (writeLoc_apply _ _ _)]
    exact key _ _ _ ((Frame.alloc _ _ _).trans (Frame.write _ loc _) (fun _ _ h => h))
  · rw [if_neg hr, D.bind_eq (writeLoc_apply _ _ _)]
    exact key _ _ _ (Frame.write _ loc _)

theorem refp_comp {i o j : Nat} {T : Seen} {t : Tree} (hv : Vint goDialect buf i o j) (ho : o < j)
    (hT : T o = some (some t)) (isREFP : Bool) (hsup : Supported cfg.view t)
    (hnil : isREFP = true → ¬ ShowsNil cfg.view t) (hlen : buf.length < 2 ^ 63) {s : DState}
    {F : Addr → Prop} {loc : Loc} {K : Val → HObj} (p : Pre cfg.view s T F loc K .nil) :
    ∃ s', decodeRefpAlias cfg buf i isREFP loc s = (.ok j, s') := by
  obtain ⟨e, h64, hj⟩ := varintAt_of hv s
  have hjl := hv.le_length
  unfold decodeRefpAlias
  rw [D.bind_eq e]
  dsimp only
  rw [hj, sgn_small (by omega), D.bind_eq (D.failIf_pass (by omega)), Int.toNat_natCast,
    D.bind_eq (D.get_apply _)]
  obtain ⟨l, K', v, h4, h5, h6, h7, h8⟩ := p.inv.done o t hT
  rw [h4]
  dsimp only
  rw [D.bind_eq (readLoc_apply _ _), h5.read h7]
  by_cases hR : isREFP = true
  · rw [if_pos hR, if_neg (fun hvn => hnil hR (shows_nil h8.shows hvn hsup))]
    by_cases hd : cfg.disableRefInt = true
    · rw [if_pos hd, D.bind_eq (writeLoc_apply _ _ _)]
      exact ⟨_, rfl⟩
    · rw [if_neg hd, D.bind_eq (allocVar_apply _ _), D.bind_eq (writeLoc_apply _ _ _)]
      exact ⟨_, rfl⟩
  · rw [if_neg hR, D.bind_eq (writeLoc_apply _ _ _)]
    exact ⟨_, rfl⟩

/-- The class name of an object. -/
def ClassAt (buf : Bytes) (cd : Bool) (isV : Bool) (i : Nat) (cls : Bytes) (j : Nat) : Prop :=
  (isV = false ∧ Strish goDialect buf cd i cls j) ∨
    (isV = true ∧ ∃ o x, Vint goDialect buf i o j ∧ o < 2 ^ 63 ∧ Strish goDialect buf cd o cls x)

theorem ClassAt.le_length {cd isV : Bool} {i j : Nat} {cls : Bytes} (h : ClassAt buf cd isV i cls j) :
    j ≤ buf.length := by
  rcases h with ⟨-, h⟩ | ⟨-, o, x, h, -⟩
  · exact h.lt.2
  · exact h.le_length

theorem ClassAt.lt {cd isV : Bool} {i j : Nat} {cls : Bytes} (h : ClassAt buf cd isV i cls j) :
    i < j := by
  rcases h with ⟨-, h⟩ | ⟨-, o, x, h, -⟩
  · exact h.lt.1
  · exact h.lt

theorem decodeClassName_of {cd isV : Bool} {i j : Nat} {cls : Bytes} (hlen : buf.length < 2 ^ 63)
    (h : ClassAt buf cd isV i cls j) (s : DState) (hcd : s.cd = cd) :
    ∃ s', decodeClassName buf i isV s = (.ok (cls, j), s') ∧ s.Eqv s' := by
  have : ∃ s', decodeClassName buf i isV s = (.ok (cls, j), s') := by
    unfold decodeClassName
    rcases h with ⟨rfl, h⟩ | ⟨rfl, o, x, h, h63, h'⟩
    · rw [if_neg (by simp)]
      subst hcd
      exact decodeStringish_of (by omega) h
    · rw [if_pos rfl]
      obtain ⟨e, h64, hj⟩ := varintAt_of h s
      rw [D.bind_eq e]
      dsimp only
      rw [sgn_small h63, D.bind_eq (D.failIf_pass (by omega)), Int.toNat_natCast]
      subst hcd
      obtain ⟨s1, h1⟩ := decodeStringish_of (by omega) h'
      rw [D.bind_eq h1, hj]
      exact ⟨_, rfl⟩
  obtain ⟨s', h'⟩ := this
  exact ⟨s', h', (decodeClassName_sound h').1⟩

theorem object_comp {cd isV : Bool} {i j j' : Nat} {T T' : Seen} {cls : Bytes} {t : Tree}
    (hlen : buf.length < 2 ^ 63) (hcls : ClassAt buf cd isV i cls j)
    (g : G goDialect buf cd .item j T (.tree t) j' T')
    (ih : Comp cfg buf cd .item j T (.tree t) j' T') (hsup : Supported cfg.view t) :
    ∀ f, need buf cd i ≤ f → ∀ s F loc K, Pre cfg.view s T F loc K .nil → s.cd = cd →
      ∃ s', decodeObject cfg buf (decode cfg buf f) i loc isV s = (.ok j', s') := by
  have ih := ih hsup
  intro f hf s F loc K p hcd
  replace hf := Nat.le_trans (need_mono buf cd (Nat.le_of_lt hcls.lt)) hf
  unfold decodeObject
  obtain ⟨s1, h1, e⟩ := decodeClassName_of hlen hcls s hcd
  rw [D.bind_eq h1]
  dsimp only
  have p1 := p.eqv e
  have hcd1 : s1.cd = cd := by rw [e.cd]; exact hcd
  by_cases hpc : cfg.perlCompat = true
  · rw [if_pos hpc, D.bind_eq (charge_apply _ _), D.bind_eq (allocVar_apply _ _),
      D.bind_eq (writeLoc_apply _ _ _)]
    have fr : Frame (· = loc.addr) s1.heap ((s1.heap.alloc (.cell (.obj cls .nil))).2.write loc
        (.ptr false s1.heap.next)) := (Frame.alloc _ _ _).trans (Frame.write _ _ _) (fun _ _ h => h)
    obtain ⟨s', h2, -⟩ := ih f hf
      { s1 with heap := ((s1.heap.alloc (.cell (.obj cls .nil))).2.write loc
                          (.ptr false s1.heap.next)),
                alloc := s1.alloc + cls.length, peak := max s1.peak cls.length }
      F (.field s1.heap.next) _
      (p1.inner (l := .field s1.heap.next) (w := .nil) fr rfl (Nat.le_refl _)
        (by dsimp only [Loc.addr]; rw [Heap.write_next]; exact Nat.lt_succ_self _) (.obj _ cls)
        (by
          dsimp only [Loc.addr]
          rw [Heap.write_mem _ _ _ _ (Nat.ne_of_gt p1.lt), Heap.alloc_mem])) hcd1
    exact ⟨s', h2⟩
  · rw [if_neg hpc]
    unfold decodeIface
    have hjl : j < buf.length := by
      have := g.lt; simp only [Job.need] at this
      have := this.2 hcls.le_length; omega
    have hnil : s1.heap.read loc = .nil := p1.ctx.read p1.mem
    rw [D.bind_eq (D.failIf_pass (by omega)), D.bind_eq (readLoc_apply _ _),
      D.bind_eq (D.failIf_pass (by rw [hnil]; simp)), D.bind_eq (allocVar_apply _ _)]
    obtain ⟨s2, h2, -⟩ := ih f hf { s1 with heap := (s1.heap.alloc (.cell .nil)).2 } F
      (.cell s1.heap.next) _
      (p1.inner (Frame.alloc _ _ _) rfl (Nat.le_refl _) (Nat.lt_succ_self _) (.cell _)
        (Heap.alloc_mem _ _)) hcd1
    rw [D.bind_eq h2, D.bind_eq (readLoc_apply _ _)]
    by_cases hv : s2.heap.read (.cell s1.heap.next) = .nil
    · rw [if_neg (by simp [hv])]
      exact ⟨_, rfl⟩
    · rw [if_pos hv, D.bind_eq (writeLoc_apply _ _ _)]
      exact ⟨_, rfl⟩

theorem freeze_comp {cd isV : Bool} {i j j' : Nat} {T T' : Seen} {cls : Bytes} {t : Tree}
    (hlen : buf.length < 2 ^ 63) (hcls : ClassAt buf cd isV i cls j)
    (hsp : Span buf j [0x28, 0x2b] (j + 2))
    (ih : Comp cfg buf cd .item j T (.tree t) j' T') (hsup : Supported cfg.view (.frz cls t)) :
    ∀ f, need buf cd i ≤ f → ∀ s F loc K, Pre cfg.view s T F loc K .nil → s.cd = cd →
      ∃ s', decodeFreeze cfg buf (decode cfg buf f) i loc isV s = (.ok j', s') := by
  cases hsup with
  | @frz _ d data hpc hsd hbin hreg =>
  have ih := ih (.ref (.arr (by simpa using hsd)))
  intro f hf s F loc K p hcd
  replace hf := Nat.le_trans (need_mono buf cd (Nat.le_of_lt hcls.lt)) hf
  unfold decodeFreeze
  obtain ⟨s1, h1, e⟩ := decodeClassName_of hlen hcls s hcd
  rw [D.bind_eq h1]
  dsimp only
  have p1 := p.eqv e
  have hcd1 : s1.cd = cd := by rw [e.cd]; exact hcd
  have e0 : buf[j]? = some 0x28 := by
    have := getElem?_of_span hsp 0 (by simp); simpa using this
  have e1 : buf[j + 1]? = some 0x2b := by
    have := getElem?_of_span hsp 1 (by simp); simpa using this
  have hjl := (List.getElem?_eq_some_iff.mp e1).1
  rw [D.bind_eq (D.failIf_pass (by omega)), D.bind_eq (byteAt_ok.2 ⟨e0, rfl⟩),
    D.bind_eq (byteAt_ok.2 ⟨e1, rfl⟩), D.bind_eq (D.failIf_pass (by decide)),
    D.bind_eq (allocVar_apply _ _)]
  obtain ⟨s2, h2, d⟩ := ih f hf { s1 with heap := (s1.heap.alloc (.cell .nil)).2 } F
      (.cell s1.heap.next) .cell
      (p1.inner (Frame.alloc _ _ _) rfl (Nat.le_refl _) (Nat.lt_succ_self _) (.cell _)
        (Heap.alloc_mem _ _)) hcd1
  obtain ⟨F1, v, A, h3, h4, h5, h6, h7⟩ := d.inner p1 (Frame.alloc _ _ _) rfl rfl (Nat.le_refl _)
    (by rw [Heap.alloc_old _ _ p1.lt]; exact p1.mem)
  simp only [Loc.addr] at h3 h4
  rw [D.bind_eq h2, D.bind_eq (readLoc_apply _ _), (Ctx.cell s1.heap.next).read (hp := s2.heap) h4]
  have hsh := h5.shows
  have hnil : s2.heap.read loc = .nil := p1.ctx.read h7
  cases hsh with
  | refP hc' => rw [hpc] at hc'; cases hc'
  | ref _ hsh =>
    cases hsh with
    | arr fv hc1 hc2 =>
      have hm : s2.heap.mem _ = .cell (fv 0) := hc1 0 (by simp)
      have hb := shows_bin hbin _ (hc2 0 _ rfl)
      rw [hb, Nat.add_zero] at hm
      dsimp only
      rw [D.bind_eq (D.failIf_pass (by simp)), D.bind_eq (readLoc_apply _ _),
        (Ctx.cell _).read (hp := s2.heap) hm]
      dsimp only
      rw [D.bind_eq (charge_apply _ _), if_neg (by simpa [DCfg.view] using hpc),
        D.bind_eq (readLoc_apply _ _)]
      dsimp only
      rw [D.bind_eq (D.failIf_pass (by rw [hnil]; simp))]
      cases hr : cfg.registry cls with
      | none =>
        dsimp only
        rw [D.bind_eq (allocVar_apply _ _), D.bind_eq (writeLoc_apply _ _ _)]
        exact ⟨_, rfl⟩
      | some u =>
        dsimp only
        rw [hreg u hr]
        dsimp only
        rw [D.bind_eq (allocVar_apply _ _), D.bind_eq (writeLoc_apply _ _ _)]
        exact ⟨_, rfl⟩

theorem refn_comp {cd : Bool} {i j : Nat} {T T' : Seen} {t : Tree}
    (ih : Comp cfg buf cd .item i T (.tree t) j T') (hsup : Supported cfg.view t) :
    ∀ f, need buf cd i ≤ f → ∀ trackme s F loc K, Pre cfg.view s T F loc K .nil → s.cd = cd →
      ∃ s', decodeRefn cfg (decode cfg buf f) trackme i loc s = (.ok j, s') := by
  have ih := ih hsup
  intro f hf trackme s F loc K p hcd
  unfold decodeRefn
  by_cases hpc : cfg.perlCompat = true
  · rw [if_pos hpc, D.bind_eq (allocVar_apply _ _), D.bind_eq (writeLoc_apply _ _ _)]
    have fr : Frame (· = loc.addr) s.heap ((s.heap.alloc (.cell .nil)).2.write loc
        (.ptr true s.heap.next)) := (Frame.alloc _ _ _).trans (Frame.write _ _ _) (fun _ _ h => h)
    obtain ⟨s1, h1, d⟩ := ih f hf
      { s with heap := ((s.heap.alloc (.cell .nil)).2.write loc (.ptr true s.heap.next)) } F
      (.cell s.heap.next) .cell
      (p.inner (l := .cell s.heap.next) (w := .nil) fr rfl (Nat.le_refl _)
        (by dsimp only [Loc.addr]; rw [Heap.write_next]; exact Nat.lt_succ_self _) (.cell _)
        (by
          dsimp only [Loc.addr]
          rw [Heap.write_mem _ _ _ _ (Nat.ne_of_gt p.lt), Heap.alloc_mem])) hcd
    rw [D.bind_eq h1]
    by_cases htr : trackme = true
    · rw [if_pos htr]; exact ⟨_, rfl⟩
    · rw [if_neg htr, D.bind_eq (readLoc_apply _ _)]
      obtain ⟨F1, v, A, h3, h4, h5⟩ := d
      simp only [Loc.addr] at h4
      rw [(Ctx.cell s.heap.next).read (hp := s1.heap) h4,
        if_neg (fun hv => not_showsNil (c := cfg.view) hpc hsup (shows_nil h5.shows hv hsup)),
        D.bind_eq (allocVar_apply _ _), D.bind_eq (writeLoc_apply _ _ _)]
      exact ⟨_, rfl⟩
  · rw [if_neg hpc]
    obtain ⟨s', h1, -⟩ := ih f hf s F loc K p hcd
    exact ⟨s', h1⟩

theorem regexp_comp {cd : Bool} {i x j : Nat} {pt m : Bytes} (hlen : buf.length < 2 ^ 63)
    (hp : Strish goDialect buf cd i pt x) (hm : Strish goDialect buf cd x m j) (s : DState)
    (hcd : s.cd = cd) : ∃ s', decodeRegexp buf i s = (.ok (pt, m, j), s') := by
  unfold decodeRegexp
  subst hcd
  obtain ⟨s1, h1⟩ := decodeStringish_of (by omega) hp
  obtain ⟨-, e, -⟩ := decodeStringish_ok h1
  rw [D.bind_eq h1]
  dsimp only
  rw [← e.cd] at hm
  obtain ⟨s2, h2⟩ := decodeStringish_of (by omega) hm
  rw [D.bind_eq h2]
  exact ⟨_, rfl⟩

/-- Every representable item is decoded, to what it denotes. -/
theorem decode_complete (hlen : buf.length < 2 ^ 63) {cd : Bool} {job : Job} {i : Nat} {T : Seen}
    {out : Out} {j : Nat} {T' : Seen} (g : G goDialect buf cd job i T out j T') :
    Comp cfg buf cd job i T out j T' := by
  -- the result of a successful run on an item
  have fin : ∀ {cd i T t j T'} (g : G goDialect buf cd .item i T (.tree t) j T') {f s F loc K s'},
      Pre cfg.view s T F loc K .nil → s.cd = cd → decode cfg buf f i loc s = (.ok j, s') →
      decode cfg buf f i loc s = (.ok j, s') ∧ Done cfg.view s T F loc K t s' T' := by
    intro cd i T t j T' g f s F loc K s' p hcd h
    obtain ⟨t2, T2, g2, d⟩ := decode_sound cfg buf f i loc K s T F .nil j s' p h
    rw [hcd] at g2
    obtain ⟨h1, -, rfl⟩ := g2.unique g
    cases h1
    exact ⟨h, d⟩
  induction g with
  | @plain cd i k b T t j T' ht hb g ih =>
    intro hsup
    have hk := ht.lt
    have ih := ih hsup (by omega) (fun n hn => classify_num (by omega) hn)
    intro f hf s F loc K p hcd
    have hk' := ht.le
    have hf1 : need buf cd (k + 1) + 1 ≤ f := by unfold need at *; omega
    obtain ⟨f, rfl⟩ : ∃ f', f = f' + 1 := ⟨f - 1, by omega⟩
    have e : s.Eqv { s with steps := s.steps + 1 } := ⟨rfl, rfl, rfl⟩
    obtain ⟨s', h⟩ := ih f (by omega) (decide (128 ≤ b.toNat)) (b.toNat % 128) _ F loc K (p.eqv e) hcd
    refine ⟨s', fin (.plain ht hb g) p hcd ?_⟩
    rw [decode_succ, D.bind_eq (tick_apply s), D.bind_eq (D.lift_ok.2 ⟨skipPad_ok.2 ht, rfl⟩)]
    dsimp only
    rw [if_neg (by omega)]
    rwa [show b.toNat % 128 = b.toNat by omega] at h ⊢
  | @tracked cd i k b T t j T' ht hb g ih =>
    intro hsup
    have hk := ht.lt
    have hb' := b.toNat_lt
    have ih := ih hsup (by omega) (fun n hn => classify_num (by omega) hn)
    intro f hf s F loc K p hcd
    have hk' := ht.le
    have hf1 : need buf cd (k + 1) + 1 ≤ f := by unfold need at *; omega
    obtain ⟨f, rfl⟩ : ∃ f', f = f' + 1 := ⟨f - 1, by omega⟩
    have p2 : Pre cfg.view { s with
        steps := s.steps + 1, tracked := fun o => if o = k then some loc else s.tracked o }
        (T.put k none) F loc K .nil := by
      refine ⟨⟨p.inv.lt, p.inv.canon, ?_, ?_⟩, p.free, p.lt, p.ctx, p.mem⟩
      · intro o
        dsimp only [Seen.put]
        by_cases ho : o = k
        · rw [if_pos ho, if_pos ho]; simp
        · rw [if_neg ho, if_neg ho]; exact p.inv.none o
      · intro o t ht
        dsimp only [Seen.put] at ht
        by_cases ho : o = k
        · rw [if_pos ho] at ht; cases ht
        · rw [if_neg ho] at ht
          dsimp only
          rw [if_neg ho]
          exact p.inv.done o t ht
    obtain ⟨s', h⟩ := ih f (by omega) (decide (128 ≤ b.toNat)) (b.toNat % 128) _ F loc K p2 hcd
    refine ⟨s', fin (.tracked ht hb g) p hcd ?_⟩
    rw [decode_succ, D.bind_eq (tick_apply s), D.bind_eq (D.lift_ok.2 ⟨skipPad_ok.2 ht, rfl⟩)]
    dsimp only
    rw [if_pos hb, D.bind_eq (track_apply _ _ _)]
    rwa [show b.toNat % 128 = b.toNat - 128 by omega] at h ⊢
  | int =>
    intro _ _ _
    intro f _ trackme tag s F loc K p hcd
    unfold decodeC
    dsimp only
    rw [D.bind_eq (writeLoc_apply _ _ _)]
    exact ⟨_, rfl⟩
  | varint hv =>
    intro _ _ _
    intro f _ trackme tag s F loc K p hcd
    unfold decodeC
    dsimp only
    obtain ⟨e, h64, hj⟩ := varintAt_of hv s
    rw [D.bind_eq e]
    dsimp only
    rw [hj]
    split <;> rw [D.bind_eq (writeLoc_apply _ _ _)] <;> exact ⟨_, rfl⟩
  | zigzag hv hz =>
    intro _ _ _
    intro f _ trackme tag s F loc K p hcd
    unfold decodeC
    dsimp only
    obtain ⟨e, h64, hj⟩ := varintAt_of hv s
    rw [D.bind_eq e]
    dsimp only
    rw [hj, D.bind_eq (writeLoc_apply _ _ _)]
    exact ⟨_, rfl⟩
  | float hs hl =>
    intro _ _ _
    intro f _ trackme tag s F loc K p hcd
    unfold decodeC
    dsimp only
    rw [D.bind_eq (decodeFloat_of s hs hl), D.bind_eq (writeLoc_apply _ _ _)]
    exact ⟨_, rfl⟩
  | double hs hl =>
    intro _ _ _
    intro f _ trackme tag s F loc K p hcd
    unfold decodeC
    dsimp only
    rw [D.bind_eq (decodeDouble_of s hs hl), D.bind_eq (writeLoc_apply _ _ _)]
    exact ⟨_, rfl⟩
  | true_ =>
    intro _ _ _
    intro f _ trackme tag s F loc K p hcd
    unfold decodeC
    dsimp only
    rw [D.bind_eq (writeLoc_apply _ _ _)]
    exact ⟨_, rfl⟩
  | false_ =>
    intro _ _ _
    intro f _ trackme tag s F loc K p hcd
    unfold decodeC
    dsimp only
    rw [D.bind_eq (writeLoc_apply _ _ _)]
    exact ⟨_, rfl⟩
  | undef =>
    intro _ _ _
    intro f _ trackme tag s F loc K p hcd
    unfold decodeC
    dsimp only
    split
    · rw [D.bind_eq (allocVar_apply _ _), D.bind_eq (writeLoc_apply _ _ _)]; exact ⟨_, rfl⟩
    · rw [D.bind_eq (writeLoc_apply _ _ _)]; exact ⟨_, rfl⟩
  | cundef =>
    intro _ _ _
    intro f _ trackme tag s F loc K p hcd
    unfold decodeC
    dsimp only
    split <;> rw [D.bind_eq (writeLoc_apply _ _ _)] <;> exact ⟨_, rfl⟩
  | binary hv hn hs hl =>
    intro _ _ _
    intro f _ trackme tag s F loc K p hcd
    unfold decodeC
    dsimp only
    obtain ⟨e, h64, hj⟩ := varintAt_of hv s
    rw [D.bind_eq e]
    dsimp only
    rw [hj, D.bind_eq ((decodeBinary_ok hv.le_length h64).2 ⟨hn, hs, hl, rfl⟩)]
    dsimp only
    rw [D.bind_eq (writeLoc_apply _ _ _)]
    exact ⟨_, rfl⟩
  | strUtf8 hv hn hs hl =>
    intro _ _ _
    intro f _ trackme tag s F loc K p hcd
    unfold decodeC
    dsimp only
    obtain ⟨e, h64, hj⟩ := varintAt_of hv s
    rw [D.bind_eq e]
    dsimp only
    rw [hj, D.bind_eq ((decodeBinary_ok hv.le_length h64).2 ⟨hn, hs, hl, rfl⟩)]
    dsimp only
    rw [D.bind_eq (writeLoc_apply _ _ _)]
    exact ⟨_, rfl⟩
  | @short cd i T n b j hs hl =>
    intro _ hi hb
    intro f _ trackme tag s F loc K p hcd
    have hn := hb _ (Or.inl rfl)
    unfold decodeC
    dsimp only
    rw [← sgn_small (n := n) (by omega),
      D.bind_eq ((decodeBinary_ok hi (by omega)).2 ⟨by simp only [maxSize]; omega, hs, hl, rfl⟩)]
    dsimp only
    rw [D.bind_eq (writeLoc_apply _ _ _)]
    exact ⟨_, rfl⟩
  | hash hv hn g ih =>
    intro hsup _ _
    cases hsup with
    | map hsup =>
    have hd := decodeHash_comp g hv.le_length ih hn hsup false
    intro f hf trackme tag s F loc K p hcd
    unfold decodeC
    dsimp only
    obtain ⟨e, h64, hj⟩ := varintAt_of hv s
    rw [D.bind_eq e]
    dsimp only
    rw [hj, sgn_small (by simp only [maxSize] at hn; omega)]
    exact hd f (Nat.le_trans (need_mono buf _ (Nat.le_of_lt hv.lt)) hf) s F loc K p hcd
  | @hashref cd i T n kvs j T' g ih =>
    intro hsup hi hb
    cases hsup with
    | ref hsup =>
    cases hsup with
    | map hsup =>
    have hn := hb n (Or.inr (Or.inr rfl))
    have hd := decodeHash_comp g hi ih (by simp only [maxSize]; omega) hsup cfg.perlCompat
    intro f hf trackme tag s F loc K p hcd
    unfold decodeC
    exact hd f hf s F loc K p hcd
  | array hv hn g ih =>
    intro hsup _ _
    cases hsup with
    | arr hsup =>
    have hd := decodeArray_comp g hv.le_length ih hn hsup false
    intro f hf trackme tag s F loc K p hcd
    unfold decodeC
    dsimp only
    obtain ⟨e, h64, hj⟩ := varintAt_of hv s
    rw [D.bind_eq e]
    dsimp only
    rw [hj, sgn_small (by simp only [maxSize] at hn; omega)]
    exact hd f (Nat.le_trans (need_mono buf _ (Nat.le_of_lt hv.lt)) hf) s F loc K p hcd
  | @arrayref cd i T n ts j T' g ih =>
    intro hsup hi hb
    cases hsup with
    | ref hsup =>
    cases hsup with
    | arr hsup =>
    have hn := hb n (Or.inr (Or.inl rfl))
    have hd := decodeArray_comp g hi ih (by simp only [maxSize]; omega) hsup cfg.perlCompat
    intro f hf trackme tag s F loc K p hcd
    unfold decodeC
    exact hd f hf s F loc K p hcd
  | refn g ih =>
    intro hsup _ _
    cases hsup with
    | ref hsup =>
    have hd := refn_comp ih hsup
    intro f hf trackme tag s F loc K p hcd
    unfold decodeC
    exact hd f hf trackme s F loc K p hcd
  | refp hv ho hT =>
    intro hsup _ _
    cases hsup with
    | refp hsup hnil =>
    intro f hf trackme tag s F loc K p hcd
    unfold decodeC
    exact refp_comp hv ho hT true hsup (fun _ => hnil) hlen p
  | refpOpen => intro hsup; cases hsup
  | alias hv ho hT =>
    intro hsup _ _
    cases hsup with
    | alias hsup =>
    intro f hf trackme tag s F loc K p hcd
    unfold decodeC
    exact refp_comp hv ho hT false hsup (fun h => by cases h) hlen p
  | aliasOpen => intro hsup; cases hsup
  | @copy i T o j t j' T' _ hv ho g ih =>
    intro hsup hi _
    have ih := ih hsup
    intro f hf trackme tag s F loc K p hcd
    unfold decodeC
    dsimp only
    have hcd0 : ¬ s.copyDepth > 0 := by simpa [DState.cd] using hcd
    obtain ⟨e, h64, hj⟩ := varintAt_of hv s
    rw [D.bind_eq (D.get_apply _), D.bind_eq (D.failIf_pass hcd0), D.bind_eq e]
    dsimp only
    rw [hj, sgn_small (by omega), D.bind_eq (D.failIf_pass (by omega)), Int.toNat_natCast]
    have p1 : Pre cfg.view { s with copyDepth := s.copyDepth + 1 } T F loc K .nil :=
      ⟨⟨p.inv.lt, p.inv.canon, p.inv.none, p.inv.done⟩, p.free, p.lt, p.ctx, p.mem⟩
    obtain ⟨s1, h1, -⟩ := ih f (by unfold need at *; simp only [if_true] at *; rw [if_neg (by simp)] at hf; omega) _ F loc K p1 (by simp [DState.cd])
    rw [D.bind_eq (withCopy_ok.2 ⟨s1, h1, rfl⟩)]
    exact ⟨_, rfl⟩
  | weaken g ih =>
    intro hsup _ _
    cases hsup with
    | weak hsup =>
    have ih := ih hsup
    intro f hf trackme tag s F loc K p hcd
    unfold decodeC
    dsimp only
    by_cases hpc : cfg.perlCompat = true
    · rw [if_pos hpc, D.bind_eq (allocVar_apply _ _), D.bind_eq (writeLoc_apply _ _ _)]
      have fr : Frame (· = loc.addr) s.heap ((s.heap.alloc (.cell (.weak .nil))).2.write loc
          (.ptr false s.heap.next)) := (Frame.alloc _ _ _).trans (Frame.write _ _ _) (fun _ _ h => h)
      obtain ⟨s', h1, -⟩ := ih f hf
        { s with heap := ((s.heap.alloc (.cell (.weak .nil))).2.write loc (.ptr false s.heap.next)) } F
        (.field s.heap.next) _
        (p.inner (l := .field s.heap.next) (w := .nil) fr rfl (Nat.le_refl _)
          (by dsimp only [Loc.addr]; rw [Heap.write_next]; exact Nat.lt_succ_self _) (.weak _)
          (by
            dsimp only [Loc.addr]
            rw [Heap.write_mem _ _ _ _ (Nat.ne_of_gt p.lt), Heap.alloc_mem])) hcd
      exact ⟨s', h1⟩
    · rw [if_neg hpc]
      obtain ⟨s', h1, -⟩ := ih f hf s F loc K p hcd
      exact ⟨s', h1⟩
  | regexp hp hm =>
    intro _ _ _
    intro f hf trackme tag s F loc K p hcd
    unfold decodeC
    dsimp only
    obtain ⟨s1, h1⟩ := regexp_comp hlen hp hm s hcd
    rw [D.bind_eq h1]
    dsimp only
    rw [D.bind_eq (allocVar_apply _ _), D.bind_eq (writeLoc_apply _ _ _)]
    exact ⟨_, rfl⟩
  | object hc g ih =>
    intro hsup _ _
    cases hsup with
    | obj hsup =>
    have hd := object_comp (isV := false) hlen (Or.inl ⟨rfl, hc⟩) g ih hsup
    intro f hf trackme tag s F loc K p hcd
    unfold decodeC
    exact hd f hf s F loc K p hcd
  | objectv hv ho hc g ih =>
    intro hsup _ _
    cases hsup with
    | obj hsup =>
    have hd := object_comp (isV := true) hlen (Or.inr ⟨rfl, _, _, hv, ho.1, hc⟩) g ih hsup
    intro f hf trackme tag s F loc K p hcd
    unfold decodeC
    exact hd f hf s F loc K p hcd
  | freeze hc hsp g ih =>
    intro hsup _ _
    have hd := freeze_comp (isV := false) hlen (Or.inl ⟨rfl, hc⟩) hsp ih hsup
    intro f hf trackme tag s F loc K p hcd
    unfold decodeC
    exact hd f hf s F loc K p hcd
  | freezev hv ho hc hsp g ih =>
    intro hsup _ _
    have hd := freeze_comp (isV := true) hlen (Or.inr ⟨rfl, _, _, hv, ho.1, hc⟩) hsp ih hsup
    intro f hf trackme tag s F loc K p hcd
    unfold decodeC
    exact hd f hf s F loc K p hcd
  | itemsNil =>
    intro _
    intro f _ s F a hI hn hF hcd
    unfold arrayLoop
    exact ⟨_, rfl⟩
  | @itemsCons cd n i T t j T' ts j' T'' g1 g2 ih1 ih2 =>
    intro hsup
    have ih1 := ih1 (hsup t List.mem_cons_self)
    have ih2 := ih2 (fun t ht => hsup t (List.mem_cons_of_mem _ ht))
    intro f hf s F a hI hn hF hcd
    have hl1 := g1.lt.1
    simp only [Job.need] at hl1
    have hf2 : need buf cd j ≤ f := Nat.le_trans (need_mono buf _ (by omega)) hf
    unfold arrayLoop
    have ha := hF a (Nat.le_refl _) (by omega)
    obtain ⟨s1, h1, F1, v, A1, hFa, hm, hs⟩ := ih1 f (by omega) s F (.cell a) .cell
      ⟨hI, ha.1, by simp only [Loc.addr]; omega, .cell a, ha.2⟩ hcd
    simp only [Loc.addr] at A1 hFa hm
    rw [D.bind_eq h1]
    refine ih2 f (by omega) s1 F1 (a + 1) A1.inv (by have := A1.frame.next; omega) ?_ ?_
    · intro x hx hx'
      obtain ⟨h2, h3⟩ := hF x (by omega) (by omega)
      constructor
      · intro h4
        rcases A1.new x h4 with h5 | h5 | h5
        · exact h2 h5
        · omega
        · omega
      · rw [A1.frame.same x (by omega) (by omega)]; exact h3
    · rw [← hcd]; unfold DState.cd; rw [A1.depth]
  | pairsNil =>
    intro _
    intro f _ s F m hI hn hF hm hcd
    unfold hashLoop
    exact ⟨_, rfl⟩
  | @pairsCons cd n i T k x t j T' kvs j' T'' hk g1 g2 ih1 ih2 =>
    intro hsup
    have ih1 := ih1 (hsup k t List.mem_cons_self)
    have ih2 := ih2 (fun k t ht => hsup k t (List.mem_cons_of_mem _ ht))
    intro f hf s F m hI hm hF hes hcd
    have hl0 := hk.lt
    have hl1 := g1.lt.1
    simp only [Job.need] at hl1
    have hf1 : need buf cd x ≤ f := Nat.le_trans (need_mono buf _ (by omega)) hf
    have hf2 : need buf cd j ≤ f := Nat.le_trans (need_mono buf _ (by omega)) hf
    obtain ⟨es, hes⟩ := hes
    unfold hashLoop
    subst hcd
    obtain ⟨s1, h1⟩ := decodeStringish_of (by omega) hk
    obtain ⟨-, e1, -⟩ := decodeStringish_ok h1
    rw [D.bind_eq h1]
    dsimp only
    rw [D.bind_eq (charge_apply _ _), D.bind_eq (allocVar_apply _ _)]
    have hnext : s1.heap.next = s.heap.next := by rw [e1.heap]
    have hI1 : Inv cfg.view
        { s1 with
          heap := (s1.heap.alloc (.cell .nil)).2
          alloc := s1.alloc + k.length
          peak := max s1.peak k.length } T F := by
      refine hI.frame (W := fun _ => False) ?_ (fun _ _ h => h) e1.tracked
      dsimp only; rw [e1.heap]; exact Frame.alloc _ _ _
    obtain ⟨s2, h2, F1, v, A1, hFa, hma, hs⟩ := ih1 f (by omega) _ F (.cell s1.heap.next) .cell
      ⟨hI1, fun hc => by have := hI.lt _ hc; simp only [Loc.addr] at this; omega,
        by simp only [Loc.addr, Heap.alloc_next]; omega,
        .cell _, Heap.alloc_mem _ _⟩ e1.cd
    simp only [Loc.addr] at A1 hFa hma
    rw [D.bind_eq h2, D.bind_eq (readLoc_apply _ _), D.bind_eq (mapSet_apply _ _ _ _)]
    have hm1 : s2.heap.mem m = .mp es := by
      rw [A1.frame.same m (by dsimp only; rw [Heap.alloc_next]; omega) (by omega)]
      dsimp only
      rw [Heap.alloc_old _ _ (by omega), e1.heap]
      exact hes
    have hF1 : ¬ F1 m := by
      intro hc
      rcases A1.new m hc with h5 | h5 | h5
      · exact hF h5
      · omega
      · dsimp only at h5; rw [Heap.alloc_next] at h5; omega
    have hlt2 : m < s2.heap.next := by
      have := A1.frame.next
      dsimp only at this
      rw [Heap.alloc_next] at this; omega
    refine ih2 f (by omega) _ F1 m (A1.inv.frame (Frame.set _ _ _) ?_ rfl) hlt2 hF1 ?_ ?_
    · rintro a ha rfl; exact hF1 ha
    · dsimp only [Heap.set]
      rw [if_pos rfl]
      exact ⟨_, rfl⟩
    · have : s2.cd = s1.cd := by unfold DState.cd; rw [A1.depth]
      exact this.trans e1.cd

end

end Sereal
