import Verif.Proof.Complete
import Verif.Spec.Fails
import Verif.Proof.Api
/-
Bad COPY, REFP and ALIAS tags are rejected as corrupt.
-/
namespace Sereal

section
variable (cfg : DCfg) (buf : Bytes)

/-- The run ends with a corrupt-document error of the given kind. -/
def Corr (off : Offence) (c : Corrupt) : Prop :=
  match off with
  | .copy => c = .nestedCOPY ∨ c = .badOffset
  | .ref => c = .badOffset ∨ c = .untrackedOffsetREFP ∨ c = .untrackedOffsetAlias

def FailsWith (off : Offence) (x : Except Exn α × DState) : Prop :=
  ∃ c s', Corr off c ∧ x = (.error (.err (.corrupt c)), s')

def FComp (off : Offence) (cd : Bool) (job : Job) (i : Nat) (T : Seen) : Prop :=
  match job with
  | .item => ∀ f, need buf cd i ≤ f → ∀ s F loc K, Pre cfg.view s T F loc K .nil → s.cd = cd →
      FailsWith off (decode cfg buf f i loc s)
  | .body tc => i ≤ buf.length →
      (∀ n, tc = .short n ∨ tc = .arrayref n ∨ tc = .hashref n → n < 32) →
      ∀ f, need buf cd i ≤ f → ∀ trackme tag s F loc K, Pre cfg.view s T F loc K .nil → s.cd = cd →
      FailsWith off (decodeC cfg buf (decode cfg buf f) tc trackme i loc tag s)
  | .items n => ∀ f, need buf cd i ≤ f → ∀ s F a,
      Inv cfg.view s T F → a + n ≤ s.heap.next →
      (∀ x, a ≤ x → x < a + n → ¬ F x ∧ s.heap.mem x = .cell .nil) → s.cd = cd →
      FailsWith off (arrayLoop (decode cfg buf f) n a i s)
  | .pairs n => ∀ f, need buf cd i ≤ f → ∀ s F m,
      Inv cfg.view s T F → m < s.heap.next → ¬ F m → (∃ es, s.heap.mem m = .mp es) → s.cd = cd →
      FailsWith off (hashLoop buf (decode cfg buf f) m n i s)

variable {cfg buf}

theorem FailsWith.bind {off : Offence} {x : D α} {f : α → D β} {s : DState} (h : FailsWith off (x s)) :
    FailsWith off ((x >>= f) s) := by
  obtain ⟨c, s', hc, h⟩ := h
  exact ⟨c, s', hc, D.bind_err h⟩

theorem FailsWith.withCopy {off : Offence} {x : D α} {s : DState}
    (h : FailsWith off (x { s with copyDepth := s.copyDepth + 1 })) :
    FailsWith off (Sereal.withCopy x s) := by
  obtain ⟨c, s', hc, h⟩ := h
  refine ⟨c, { s' with copyDepth := s'.copyDepth - 1 }, hc, ?_⟩
  unfold Sereal.withCopy
  rw [h]

theorem FailsWith.failIf {off : Offence} {p : Prop} [Decidable p] {c : Corrupt} {s : DState} (hp : p)
    (hc : Corr off c) : FailsWith off (D.failIf p (.err (.corrupt c)) s) :=
  ⟨c, s, hc, D.failIf_error.2 ⟨hp, rfl, rfl⟩⟩

/-- The offset of a COPY is rejected. -/
theorem bad_offset {o i : Nat} (h64 : o < 2 ^ 64) (h : i ≤ o) :
    sgn o < 0 ∨ sgn o ≥ i := by
  by_cases h63 : o < 2 ^ 63
  · rw [sgn_small h63]; omega
  · exact Or.inl (sgn_big (by omega) h64)

theorem decodeStringish_bad (hlen : buf.length < 2 ^ 63) {cd : Bool} {i : Nat} (h : BadKey buf cd i)
    (s : DState) (hcd : s.cd = cd) : FailsWith .copy (decodeStringish buf i s) := by
  have fin : ∀ f {i k b} (s : DState), TagAt buf i k b → classify (b.toNat % 128) = .copy →
      (s.cd = true ∨ ∃ o j, Vint goDialect buf (k + 1) o j ∧ (k < o ∨ FailsWith .copy
        (decodeStringishF buf f o { s with copyDepth := s.copyDepth + 1, steps := s.steps + 1 }))) →
      FailsWith .copy (decodeStringishF buf (f + 1) i s) := by
    intro f i k b s ht hc hor
    have hk := ht.lt
    have htag : b &&& ~~~ trackFlag = typeCOPY := by
      clear ht
      revert hc; revert b; apply u8_forall; set_option maxRecDepth 8000 in decide
    unfold decodeStringishF
    rw [D.bind_eq (tick_apply s), D.bind_eq (D.lift_ok.2 ⟨skipPad_ok.2 ht, rfl⟩)]
    dsimp only
    rw [htag, if_neg (by decide), if_neg (by decide), if_pos rfl, D.bind_eq (D.get_apply _)]
    by_cases hcd : s.cd = true
    · exact .bind (.failIf (by simpa [DState.cd] using hcd) (.inl rfl))
    · rcases hor with h | ⟨o, j, hv, hor⟩
      · exact absurd h hcd
      · have hcd0 : ¬ s.copyDepth > 0 := by simpa [DState.cd] using hcd
        rw [D.bind_eq (D.failIf_pass hcd0)]
        obtain ⟨e, h64, hj⟩ := varintAt_of hv { s with steps := s.steps + 1 }
        rw [D.bind_eq e]
        dsimp only
        by_cases hko : k < o
        · exact .bind (.failIf (bad_offset h64 (by omega)) (.inr rfl))
        · rcases hor with h | h
          · exact absurd h hko
          · rw [D.bind_eq (D.failIf_pass (by rw [sgn_small (by omega)]; omega)), sgn_small (by omega),
              Int.toNat_natCast]
            exact .bind (.withCopy h)
  cases h with
  | nested ht hc => exact fin 1 s ht hc (.inl hcd)
  | ahead ht hc hv ho => exact fin 1 s ht hc (.inr ⟨_, _, hv, .inl ho⟩)
  | again ht hc hv ho ht' hc' =>
    exact fin 1 s ht hc (.inr ⟨_, _, hv, .inr (fin 0 _ ht' hc' (.inl (by simp [DState.cd])))⟩)

theorem decodeClassName_bad (hlen : buf.length < 2 ^ 63) {cd isV : Bool} {i : Nat}
    (h : (isV = false ∧ BadKey buf cd i) ∨
      (isV = true ∧ ∃ o j, Vint goDialect buf i o j ∧ o < 2 ^ 63 ∧ BadKey buf cd o))
    (s : DState) (hcd : s.cd = cd) : FailsWith .copy (decodeClassName buf i isV s) := by
  unfold decodeClassName
  rcases h with ⟨rfl, h⟩ | ⟨rfl, o, j, h, h63, h'⟩
  · rw [if_neg (by simp)]
    exact decodeStringish_bad hlen h s hcd
  · rw [if_pos rfl]
    obtain ⟨e, h64, hj⟩ := varintAt_of h s
    rw [D.bind_eq e]
    dsimp only
    rw [sgn_small h63, D.bind_eq (D.failIf_pass (by omega)), Int.toNat_natCast]
    exact .bind (decodeStringish_bad hlen h' s hcd)

theorem decodeHash_bad {off : Offence} {cd : Bool} {n i : Nat} {T : Seen}
    (hl : i + 2 * n ≤ buf.length)
    (ih : FComp cfg buf off cd (.pairs n) i T) (hn : n ≤ maxSize) (isRef : Bool) :
    ∀ f, need buf cd i ≤ f → ∀ s F loc K, Pre cfg.view s T F loc K .nil → s.cd = cd →
      FailsWith off (decodeHash buf (decode cfg buf f) i n loc isRef s) := by
  intro f hf s F loc K p hcd
  unfold decodeHash
  have hneg : ¬ ((n : Int) < 0 ∨ (n : Int) > maxInt32) := by
    simp only [maxSize] at hn; simp only [maxInt32]; omega
  rw [D.bind_eq (D.failIf_pass hneg), Int.toNat_natCast, D.bind_eq (D.failIf_pass (by omega)),
    D.bind_eq (charge_apply _ _), D.bind_eq (allocObj_apply _ _)]
  have hlt := p.lt
  have key : ∀ (hp : Heap) (al pk : Nat), Frame (· = loc.addr) (s.heap.alloc (.mp [])).2 hp →
      FailsWith off (hashLoop buf (decode cfg buf f) s.heap.next n i
        { s with heap := hp, alloc := al, peak := pk }) := by
    intro hp al pk fr
    have f0 : Frame (· = loc.addr) s.heap hp :=
      (Frame.alloc _ s.heap _).trans fr (fun _ _ h => h)
    have hnext : s.heap.next + 1 ≤ hp.next := by
      have := fr.next; rwa [Heap.alloc_next] at this
    refine ih f hf _ F _ (p.inv.frame f0 ?_ rfl) (by dsimp only; omega) ?_ ⟨[], ?_⟩ hcd
    · rintro a ha rfl; exact p.free ha
    · intro hc; have := p.inv.lt _ hc; omega
    · dsimp only
      rw [fr.same _ (by rw [Heap.alloc_next]; omega) (by omega), Heap.alloc_mem]
  by_cases hr : isRef = true
  · rw [if_pos hr, D.bind_eq (allocVar_apply _ _), D.bind_eq (writeLoc_apply _ _ _)]
    exact key _ _ _ ((Frame.alloc _ _ _).trans (Frame.write _ loc _) (fun _ _ h => h))
  · rw [if_neg hr, D.bind_eq (writeLoc_apply _ _ _)]
    exact key _ _ _ (Frame.write _ loc _)

theorem decodeArray_bad {off : Offence} {cd : Bool} {n i : Nat} {T : Seen} (hl : i + n ≤ buf.length)
    (ih : FComp cfg buf off cd (.items n) i T) (hn : n ≤ maxSize) (isRef : Bool) :
    ∀ f, need buf cd i ≤ f → ∀ s F loc K, Pre cfg.view s T F loc K .nil → s.cd = cd →
      FailsWith off (decodeArray buf (decode cfg buf f) i n loc isRef s) := by
  intro f hf s F loc K p hcd
  unfold decodeArray
  have hneg : ¬ ((n : Int) < 0 ∨ (n : Int) > maxInt32) := by
    simp only [maxSize] at hn; simp only [maxInt32]; omega
  rw [D.bind_eq (D.failIf_pass hneg), Int.toNat_natCast, D.bind_eq (D.failIf_pass (by omega)),
    D.bind_eq (charge_apply _ _), D.bind_eq (allocSlice_apply _ _)]
  have hlt := p.lt
  have key : ∀ (hp : Heap) (al pk : Nat), Frame (· = loc.addr) (s.heap.allocCells n).2 hp →
      FailsWith off (arrayLoop (decode cfg buf f) n s.heap.next i
        { s with heap := hp, alloc := al, peak := pk }) := by
    intro hp al pk fr
    have f0 : Frame (· = loc.addr) s.heap hp :=
      (Frame.allocCells _ s.heap n).trans fr (fun _ _ h => h)
    have hnext : s.heap.next + max n 1 ≤ hp.next := by
      have := fr.next; simpa [Heap.allocCells] using this
    refine ih f hf _ F _ (p.inv.frame f0 ?_ rfl) (by dsimp only; omega) ?_ hcd
    · rintro a ha rfl; exact p.free ha
    · intro x hx hx'
      refine ⟨fun hc => by have := p.inv.lt x hc; omega, ?_⟩
      dsimp only
      rw [fr.same x (by simp only [Heap.allocCells]; omega) (by omega)]
      simp only [Heap.allocCells]
      rw [if_pos (by omega)]
  by_cases hr : isRef = true
  · rw [if_pos hr, D.bind_eq (allocVar_apply _ _), D.bind_eq (writeLoc_apply _ _ _)]
    exact key _ _ _ ((Frame.alloc _ _ _).trans (Frame.write _ loc _) (fun _ _ h => h))
  · rw [if_neg hr, D.bind_eq (writeLoc_apply _ _ _)]
    exact key _ _ _ (Frame.write _ loc _)

theorem refp_bad {i o j : Nat} {T : Seen} (hv : Vint goDialect buf i o j)
    (ho : j ≤ o ∨ T o = none) (isREFP : Bool) (hlen : buf.length < 2 ^ 63) {s : DState}
    {F : Addr → Prop} {loc : Loc} {K : Val → HObj} (p : Pre cfg.view s T F loc K .nil) :
    FailsWith .ref (decodeRefpAlias cfg buf i isREFP loc s) := by
  obtain ⟨e, h64, hj⟩ := varintAt_of hv s
  have hjl := hv.le_length
  unfold decodeRefpAlias
  rw [D.bind_eq e]
  dsimp only
  rw [hj]
  by_cases hjo : j ≤ o
  · exact .bind (.failIf (bad_offset h64 hjo) (.inl rfl))
  · rw [sgn_small (by omega), D.bind_eq (D.failIf_pass (by omega)), Int.toNat_natCast,
      D.bind_eq (D.get_apply _), (p.inv.none o).2 (ho.resolve_left hjo)]
    dsimp only
    split
    · exact ⟨_, _, .inr (.inl rfl), rfl⟩
    · exact ⟨_, _, .inr (.inr rfl), rfl⟩

theorem object_bad {off : Offence} {cd isV : Bool} {i j : Nat} {T : Seen} {cls : Bytes}
    (hlen : buf.length < 2 ^ 63) (hcls : ClassAt buf cd isV i cls j) (hjl : j < buf.length)
    (ih : FComp cfg buf off cd .item j T) :
    ∀ f, need buf cd i ≤ f → ∀ s F loc K, Pre cfg.view s T F loc K .nil → s.cd = cd →
      FailsWith off (decodeObject cfg buf (decode cfg buf f) i loc isV s) := by
  intro f hf s F loc K p hcd
  replace hf := Nat.le_trans (need_mono buf cd (Nat.le_of_lt hcls.lt)) hf
  unfold decodeObject
  obtain ⟨s1, h1, e⟩ := decodeClassName_of hlen hcls s hcd
  rw [D.bind_eq h1]
  dsimp only
  have p1 := p.eqv e
  have hcd1 : s1.cd = cd := by rw [e.cd]; exact hcd
  by_cases hpc : cfg.perlCompat = true
  · rw [if_pos hpc, D.bind_eq (charge_apply _ _), D.bind_eq (allocVar_apply _ _),
      D.bind_eq (writeLoc_apply _ _ _)]
    have fr : Frame (· = loc.addr) s1.heap ((s1.heap.alloc (.cell (.obj cls .nil))).2.write loc
        (.ptr false s1.heap.next)) := (Frame.alloc _ _ _).trans (Frame.write _ _ _) (fun _ _ h => h)
    exact ih f hf
      { s1 with heap := ((s1.heap.alloc (.cell (.obj cls .nil))).2.write loc
                          (.ptr false s1.heap.next)),
                alloc := s1.alloc + cls.length, peak := max s1.peak cls.length }
      F (.field s1.heap.next) _
      (p1.inner (l := .field s1.heap.next) (w := .nil) fr rfl (Nat.le_refl _)
        (by dsimp only [Loc.addr]; rw [Heap.write_next]; exact Nat.lt_succ_self _) (.obj _ cls)
        (by
          dsimp only [Loc.addr]
          rw [Heap.write_mem _ _ _ _ (Nat.ne_of_gt p1.lt), Heap.alloc_mem])) hcd1
  · rw [if_neg hpc]
    unfold decodeIface
    have hnil : s1.heap.read loc = .nil := p1.ctx.read p1.mem
    rw [D.bind_eq (D.failIf_pass (by omega)), D.bind_eq (readLoc_apply _ _),
      D.bind_eq (D.failIf_pass (by rw [hnil]; simp)), D.bind_eq (allocVar_apply _ _)]
    exact .bind (ih f hf { s1 with heap := (s1.heap.alloc (.cell .nil)).2 } F
      (.cell s1.heap.next) _
      (p1.inner (Frame.alloc _ _ _) rfl (Nat.le_refl _) (Nat.lt_succ_self _) (.cell _)
        (Heap.alloc_mem _ _)) hcd1)

theorem freeze_bad {off : Offence} {cd isV : Bool} {i j : Nat} {T : Seen} {cls : Bytes}
    (hlen : buf.length < 2 ^ 63) (hcls : ClassAt buf cd isV i cls j)
    (hsp : Span buf j [0x28, 0x2b] (j + 2)) (ih : FComp cfg buf off cd .item j T) :
    ∀ f, need buf cd i ≤ f → ∀ s F loc K, Pre cfg.view s T F loc K .nil → s.cd = cd →
      FailsWith off (decodeFreeze cfg buf (decode cfg buf f) i loc isV s) := by
  intro f hf s F loc K p hcd
  replace hf := Nat.le_trans (need_mono buf cd (Nat.le_of_lt hcls.lt)) hf
  unfold decodeFreeze
  obtain ⟨s1, h1, e⟩ := decodeClassName_of hlen hcls s hcd
  rw [D.bind_eq h1]
  dsimp only
  have p1 := p.eqv e
  have hcd1 : s1.cd = cd := by rw [e.cd]; exact hcd
  have e0 : buf[j]? = some 0x28 := by
    have := getElem?_of_span hsp 0 (by simp); simpa using this
  have e1 : buf[j + 1]? = some 0x2b := by
    have := getElem?_of_span hsp 1 (by simp); simpa using this
  have hjl := (List.getElem?_eq_some_iff.mp e1).1
  rw [D.bind_eq (D.failIf_pass (by omega)), D.bind_eq (byteAt_ok.2 ⟨e0, rfl⟩),
    D.bind_eq (byteAt_ok.2 ⟨e1, rfl⟩), D.bind_eq (D.failIf_pass (by decide)),
    D.bind_eq (allocVar_apply _ _)]
  exact .bind (ih f hf { s1 with heap := (s1.heap.alloc (.cell .nil)).2 } F
      (.cell s1.heap.next) .cell
      (p1.inner (Frame.alloc _ _ _) rfl (Nat.le_refl _) (Nat.lt_succ_self _) (.cell _)
        (Heap.alloc_mem _ _)) hcd1)

theorem refn_bad {off : Offence} {cd : Bool} {i : Nat} {T : Seen} (ih : FComp cfg buf off cd .item i T) :
    ∀ f, need buf cd i ≤ f → ∀ trackme s F loc K, Pre cfg.view s T F loc K .nil → s.cd = cd →
      FailsWith off (decodeRefn cfg (decode cfg buf f) trackme i loc s) := by
  intro f hf trackme s F loc K p hcd
  unfold decodeRefn
  by_cases hpc : cfg.perlCompat = true
  · rw [if_pos hpc, D.bind_eq (allocVar_apply _ _), D.bind_eq (writeLoc_apply _ _ _)]
    have fr : Frame (· = loc.addr) s.heap ((s.heap.alloc (.cell .nil)).2.write loc
        (.ptr true s.heap.next)) := (Frame.alloc _ _ _).trans (Frame.write _ _ _) (fun _ _ h => h)
    exact .bind (ih f hf
      { s with heap := ((s.heap.alloc (.cell .nil)).2.write loc (.ptr true s.heap.next)) } F
      (.cell s.heap.next) .cell
      (p.inner (l := .cell s.heap.next) (w := .nil) fr rfl (Nat.le_refl _)
        (by dsimp only [Loc.addr]; rw [Heap.write_next]; exact Nat.lt_succ_self _) (.cell _)
        (by
          dsimp only [Loc.addr]
          rw [Heap.write_mem _ _ _ _ (Nat.ne_of_gt p.lt), Heap.alloc_mem])) hcd)
  · rw [if_neg hpc]
    exact ih f hf s F loc K p hcd

theorem BadRef.lt {P : Tree → Prop} {off : Offence} {cd : Bool} {i : Nat} {T : Seen}
    (h : BadRef P buf off cd .item i T) : i < buf.length := by
  cases h with
  | plain ht => have := ht.lt; have := ht.le; omega
  | tracked ht => have := ht.lt; have := ht.le; omega

/-- A document whose first offence is a bad COPY, REFP or ALIAS is rejected as corrupt. -/
theorem decode_bad (hlen : buf.length < 2 ^ 63) {off : Offence} {cd : Bool} {job : Job} {i : Nat}
    {T : Seen} (g : BadRef (Supported cfg.view) buf off cd job i T) : FComp cfg buf off cd job i T := by
  induction g with
  | copyNested ho =>
    subst ho
    intro hi _ f _ trackme tag s F loc K p hcd
    unfold decodeC
    dsimp only
    rw [D.bind_eq (D.get_apply _)]
    exact .bind (.failIf (by simpa [DState.cd] using hcd) (.inl rfl))
  | copyAhead ho hv hio =>
    subst ho
    intro hi _ f _ trackme tag s F loc K p hcd
    unfold decodeC
    dsimp only
    rw [D.bind_eq (D.get_apply _)]
    by_cases hc : s.copyDepth > 0
    · exact .bind (.failIf hc (.inl rfl))
    · rw [D.bind_eq (D.failIf_pass hc)]
      obtain ⟨e, h64, hj⟩ := varintAt_of hv s
      rw [D.bind_eq e]
      dsimp only
      exact .bind (.failIf (bad_offset h64 hio) (.inr rfl))
  | @copyIn i T o j hv ho g ih =>
    intro hi _ f hf trackme tag s F loc K p hcd
    unfold decodeC
    dsimp only
    have hcd0 : ¬ s.copyDepth > 0 := by simpa [DState.cd] using hcd
    obtain ⟨e, h64, hj⟩ := varintAt_of hv s
    rw [D.bind_eq (D.get_apply _), D.bind_eq (D.failIf_pass hcd0), D.bind_eq e]
    dsimp only
    rw [sgn_small (by omega), D.bind_eq (D.failIf_pass (by omega)), Int.toNat_natCast]
    have p1 : Pre cfg.view { s with copyDepth := s.copyDepth + 1 } T F loc K .nil :=
      ⟨⟨p.inv.lt, p.inv.canon, p.inv.none, p.inv.done⟩, p.free, p.lt, p.ctx, p.mem⟩
    exact .bind (.withCopy (ih f (by
      unfold need at *; simp only [if_true] at *; rw [if_neg (by simp)] at hf; omega) _ F loc K p1
      (by simp [DState.cd])))
  | refp ho hv hor =>
    subst ho
    intro hi _ f hf trackme tag s F loc K p hcd
    unfold decodeC
    exact refp_bad hv hor true hlen p
  | alias ho hv hor =>
    subst ho
    intro hi _ f hf trackme tag s F loc K p hcd
    unfold decodeC
    exact refp_bad hv hor false hlen p
  | @plain cd i k b T ht hb g ih =>
    have hk := ht.lt
    have ih := ih (by omega) (fun n hn => classify_num (by omega) hn)
    intro f hf s F loc K p hcd
    have hk' := ht.le
    have hf1 : need buf cd (k + 1) + 1 ≤ f := by unfold need at *; omega
    obtain ⟨f, rfl⟩ : ∃ f', f = f' + 1 := ⟨f - 1, by omega⟩
    have e : s.Eqv { s with steps := s.steps + 1 } := ⟨rfl, rfl, rfl⟩
    have h := ih f (by omega) (decide (128 ≤ b.toNat)) (b.toNat % 128) _ F loc K (p.eqv e) hcd
    rw [decode_succ, D.bind_eq (tick_apply s), D.bind_eq (D.lift_ok.2 ⟨skipPad_ok.2 ht, rfl⟩)]
    dsimp only
    rw [if_neg (by omega)]
    rwa [show b.toNat % 128 = b.toNat by omega] at h ⊢
  | @tracked cd i k b T ht hb g ih =>
    have hk := ht.lt
    have hb' := b.toNat_lt
    have ih := ih (by omega) (fun n hn => classify_num (by omega) hn)
    intro f hf s F loc K p hcd
    have hk' := ht.le
    have hf1 : need buf cd (k + 1) + 1 ≤ f := by unfold need at *; omega
    obtain ⟨f, rfl⟩ : ∃ f', f = f' + 1 := ⟨f - 1, by omega⟩
    have p2 : Pre cfg.view { s with
        steps := s.steps + 1, tracked := fun o => if o = k then some loc else s.tracked o }
        (T.put k none) F loc K .nil := by
      refine ⟨⟨p.inv.lt, p.inv.canon, ?_, ?_⟩, p.free, p.lt, p.ctx, p.mem⟩
      · intro o
        dsimp only [Seen.put]
        by_cases ho : o = k
        · rw [if_pos ho, if_pos ho]; simp
        · rw [if_neg ho, if_neg ho]; exact p.inv.none o
      · intro o t ht
        dsimp only [Seen.put] at ht
        by_cases ho : o = k
        · rw [if_pos ho] at ht; cases ht
        · rw [if_neg ho] at ht
          dsimp only
          rw [if_neg ho]
          exact p.inv.done o t ht
    have h := ih f (by omega) (decide (128 ≤ b.toNat)) (b.toNat % 128) _ F loc K p2 hcd
    rw [decode_succ, D.bind_eq (tick_apply s), D.bind_eq (D.lift_ok.2 ⟨skipPad_ok.2 ht, rfl⟩)]
    dsimp only
    rw [if_pos hb, D.bind_eq (track_apply _ _ _)]
    rwa [show b.toNat % 128 = b.toNat - 128 by omega] at h ⊢
  | hash hv hn hl g ih =>
    intro _ _
    have hd := decodeHash_bad hl ih hn false
    intro f hf trackme tag s F loc K p hcd
    unfold decodeC
    dsimp only
    obtain ⟨e, h64, hj⟩ := varintAt_of hv s
    rw [D.bind_eq e]
    dsimp only
    rw [hj, sgn_small (by simp only [maxSize] at hn; omega)]
    exact hd f (Nat.le_trans (need_mono buf _ (Nat.le_of_lt hv.lt)) hf) s F loc K p hcd
  | @hashref cd i T n hl g ih =>
    intro hi hb
    have hn := hb n (Or.inr (Or.inr rfl))
    have hd := decodeHash_bad hl ih (by simp only [maxSize]; omega) cfg.perlCompat
    intro f hf trackme tag s F loc K p hcd
    unfold decodeC
    exact hd f hf s F loc K p hcd
  | array hv hn hl g ih =>
    intro _ _
    have hd := decodeArray_bad hl ih hn false
    intro f hf trackme tag s F loc K p hcd
    unfold decodeC
    dsimp only
    obtain ⟨e, h64, hj⟩ := varintAt_of hv s
    rw [D.bind_eq e]
    dsimp only
    rw [hj, sgn_small (by simp only [maxSize] at hn; omega)]
    exact hd f (Nat.le_trans (need_mono buf _ (Nat.le_of_lt hv.lt)) hf) s F loc K p hcd
  | @arrayref cd i T n hl g ih =>
    intro hi hb
    have hn := hb n (Or.inr (Or.inl rfl))
    have hd := decodeArray_bad hl ih (by simp only [maxSize]; omega) cfg.perlCompat
    intro f hf trackme tag s F loc K p hcd
    unfold decodeC
    exact hd f hf s F loc K p hcd
  | refn g ih =>
    intro _ _ f hf trackme tag s F loc K p hcd
    unfold decodeC
    exact refn_bad ih f hf trackme s F loc K p hcd
  | weaken g ih =>
    intro _ _ f hf trackme tag s F loc K p hcd
    unfold decodeC
    dsimp only
    by_cases hpc : cfg.perlCompat = true
    · rw [if_pos hpc, D.bind_eq (allocVar_apply _ _), D.bind_eq (writeLoc_apply _ _ _)]
      have fr : Frame (· = loc.addr) s.heap ((s.heap.alloc (.cell (.weak .nil))).2.write loc
          (.ptr false s.heap.next)) := (Frame.alloc _ _ _).trans (Frame.write _ _ _) (fun _ _ h => h)
      exact ih f hf
        { s with heap := ((s.heap.alloc (.cell (.weak .nil))).2.write loc (.ptr false s.heap.next)) } F
        (.field s.heap.next) _
        (p.inner (l := .field s.heap.next) (w := .nil) fr rfl (Nat.le_refl _)
          (by dsimp only [Loc.addr]; rw [Heap.write_next]; exact Nat.lt_succ_self _) (.weak _)
          (by
            dsimp only [Loc.addr]
            rw [Heap.write_mem _ _ _ _ (Nat.ne_of_gt p.lt), Heap.alloc_mem])) hcd
    · rw [if_neg hpc]
      exact ih f hf s F loc K p hcd
  | regexpPat ho hk =>
    subst ho
    intro _ _ f hf trackme tag s F loc K p hcd
    unfold decodeC
    dsimp only
    unfold decodeRegexp
    exact .bind (.bind (decodeStringish_bad hlen hk s hcd))
  | regexpMod ho hp hk =>
    subst ho
    intro _ _ f hf trackme tag s F loc K p hcd
    unfold decodeC
    dsimp only
    unfold decodeRegexp
    subst hcd
    obtain ⟨s1, h1⟩ := decodeStringish_of (by omega) hp
    obtain ⟨-, e, -⟩ := decodeStringish_ok h1
    refine .bind ?_
    rw [D.bind_eq h1]
    exact .bind (decodeStringish_bad hlen hk s1 e.cd)
  | objectCls ho hk =>
    subst ho
    intro _ _ f hf trackme tag s F loc K p hcd
    unfold decodeC
    exact .bind (decodeClassName_bad hlen (.inl ⟨rfl, hk⟩) s hcd)
  | object hc g ih =>
    intro _ _ f hf trackme tag s F loc K p hcd
    unfold decodeC
    exact object_bad (isV := false) hlen (Or.inl ⟨rfl, hc⟩) g.lt ih f hf s F loc K p hcd
  | objectvCls ho hv h63 hk =>
    subst ho
    intro _ _ f hf trackme tag s F loc K p hcd
    unfold decodeC
    exact .bind (decodeClassName_bad hlen (.inr ⟨rfl, _, _, hv, h63, hk⟩) s hcd)
  | objectv hv h63 hc g ih =>
    intro _ _ f hf trackme tag s F loc K p hcd
    unfold decodeC
    exact object_bad (isV := true) hlen (Or.inr ⟨rfl, _, _, hv, h63, hc⟩) g.lt ih f hf s F loc K p hcd
  | freezeCls ho hk =>
    subst ho
    intro _ _ f hf trackme tag s F loc K p hcd
    unfold decodeC
    exact .bind (decodeClassName_bad hlen (.inl ⟨rfl, hk⟩) s hcd)
  | freeze hc hsp g ih =>
    intro _ _ f hf trackme tag s F loc K p hcd
    unfold decodeC
    exact freeze_bad (isV := false) hlen (Or.inl ⟨rfl, hc⟩) hsp ih f hf s F loc K p hcd
  | freezevCls ho hv h63 hk =>
    subst ho
    intro _ _ f hf trackme tag s F loc K p hcd
    unfold decodeC
    exact .bind (decodeClassName_bad hlen (.inr ⟨rfl, _, _, hv, h63, hk⟩) s hcd)
  | freezev hv h63 hc hsp g ih =>
    intro _ _ f hf trackme tag s F loc K p hcd
    unfold decodeC
    exact freeze_bad (isV := true) hlen (Or.inr ⟨rfl, _, _, hv, h63, hc⟩) hsp ih f hf s F loc K p hcd
  | itemsHead g ih =>
    intro f hf s F a hI hn hF hcd
    unfold arrayLoop
    have ha := hF a (Nat.le_refl _) (by omega)
    exact .bind (ih f hf s F (.cell a) .cell
      ⟨hI, ha.1, by simp only [Loc.addr]; omega, .cell a, ha.2⟩ hcd)
  | @itemsTail cd n i T t j T' g1 hsup g2 ih2 =>
    have ih1 := decode_complete (cfg := cfg) hlen g1 hsup
    intro f hf s F a hI hn hF hcd
    have hl1 := g1.lt.1
    simp only [Job.need] at hl1
    have hf2 : need buf cd j ≤ f := Nat.le_trans (need_mono buf _ (by omega)) hf
    unfold arrayLoop
    have ha := hF a (Nat.le_refl _) (by omega)
    obtain ⟨s1, h1, F1, v, A1, hFa, hm, hs⟩ := ih1 f (by omega) s F (.cell a) .cell
      ⟨hI, ha.1, by simp only [Loc.addr]; omega, .cell a, ha.2⟩ hcd
    simp only [Loc.addr] at A1 hFa hm
    rw [D.bind_eq h1]
    refine ih2 f (by omega) s1 F1 (a + 1) A1.inv (by have := A1.frame.next; omega) ?_ ?_
    · intro x hx hx'
      obtain ⟨h2, h3⟩ := hF x (by omega) (by omega)
      constructor
      · intro h4
        rcases A1.new x h4 with h5 | h5 | h5
        · exact h2 h5
        · omega
        · omega
      · rw [A1.frame.same x (by omega) (by omega)]; exact h3
    · rw [← hcd]; unfold DState.cd; rw [A1.depth]
  | pairsKey ho hk =>
    subst ho
    intro f hf s F m hI hm hF hes hcd
    unfold hashLoop
    exact .bind (decodeStringish_bad hlen hk s hcd)
  | @pairsHead cd n i T k x hk g ih =>
    intro f hf s F m hI hm hF hes hcd
    have hl0 := hk.lt
    have hf1 : need buf cd x ≤ f := Nat.le_trans (need_mono buf _ (by omega)) hf
    unfold hashLoop
    subst hcd
    obtain ⟨s1, h1⟩ := decodeStringish_of (by omega) hk
    obtain ⟨-, e1, -⟩ := decodeStringish_ok h1
    rw [D.bind_eq h1]
    dsimp only
    rw [D.bind_eq (charge_apply _ _), D.bind_eq (allocVar_apply _ _)]
    have hnext : s1.heap.next = s.heap.next := by rw [e1.heap]
    have hI1 : Inv cfg.view
        { s1 with
          heap := (s1.heap.alloc (.cell .nil)).2
          alloc := s1.alloc + k.length
          peak := max s1.peak k.length } T F := by
      refine hI.frame (W := fun _ => False) ?_ (fun _ _ h => h) e1.tracked
      dsimp only; rw [e1.heap]; exact Frame.alloc _ _ _
    exact .bind (ih f (by omega) _ F (.cell s1.heap.next) .cell
      ⟨hI1, fun hc => by have := hI.lt _ hc; simp only [Loc.addr] at this; omega,
        by simp only [Loc.addr, Heap.alloc_next]; omega,
        .cell _, Heap.alloc_mem _ _⟩ e1.cd)
  | @pairsTail cd n i T k x t j T' hk g1 hsup g2 ih2 =>
    have ih1 := decode_complete (cfg := cfg) hlen g1 hsup
    intro f hf s F m hI hm hF hes hcd
    have hl0 := hk.lt
    have hl1 := g1.lt.1
    simp only [Job.need] at hl1
    have hf1 : need buf cd x ≤ f := Nat.le_trans (need_mono buf _ (by omega)) hf
    have hf2 : need buf cd j ≤ f := Nat.le_trans (need_mono buf _ (by omega)) hf
    obtain ⟨es, hes⟩ := hes
    unfold hashLoop
    subst hcd
    obtain ⟨s1, h1⟩ := decodeStringish_of (by omega) hk
    obtain ⟨-, e1, -⟩ := decodeStringish_ok h1
    rw [D.bind_eq h1]
    dsimp only
    rw [D.bind_eq (charge_apply _ _), D.bind_eq (allocVar_apply _ _)]
    have hnext : s1.heap.next = s.heap.next := by rw [e1.heap]
    have hI1 : Inv cfg.view
        { s1 with
          heap := (s1.heap.alloc (.cell .nil)).2
          alloc := s1.alloc + k.length
          peak := max s1.peak k.length } T F := by
      refine hI.frame (W := fun _ => False) ?_ (fun _ _ h => h) e1.tracked
      dsimp only; rw [e1.heap]; exact Frame.alloc _ _ _
    obtain ⟨s2, h2, F1, v, A1, hFa, hma, hs⟩ := ih1 f (by omega) _ F (.cell s1.heap.next) .cell
      ⟨hI1, fun hc => by have := hI.lt _ hc; simp only [Loc.addr] at this; omega,
        by simp only [Loc.addr, Heap.alloc_next]; omega,
        .cell _, Heap.alloc_mem _ _⟩ e1.cd
    simp only [Loc.addr] at A1 hFa hma
    rw [D.bind_eq h2, D.bind_eq (readLoc_apply _ _), D.bind_eq (mapSet_apply _ _ _ _)]
    have hm1 : s2.heap.mem m = .mp es := by
      rw [A1.frame.same m (by dsimp only; rw [Heap.alloc_next]; omega) (by omega)]
      dsimp only
      rw [Heap.alloc_old _ _ (by omega), e1.heap]
      exact hes
    have hF1 : ¬ F1 m := by
      intro hc
      rcases A1.new m hc with h5 | h5 | h5
      · exact hF h5
      · omega
      · dsimp only at h5; rw [Heap.alloc_next] at h5; omega
    have hlt2 : m < s2.heap.next := by
      have := A1.frame.next
      dsimp only at this
      rw [Heap.alloc_next] at this; omega
    refine ih2 f (by omega) _ F1 m (A1.inv.frame (Frame.set _ _ _) ?_ rfl) hlt2 hF1 ?_ ?_
    · rintro a ha rfl; exact hF1 ha
    · dsimp only [Heap.set]
      rw [if_pos rfl]
      exact ⟨_, rfl⟩
    · have : s2.cd = s1.cd := by unfold DState.cd; rw [A1.depth]
      exact this.trans e1.cd

theorem BadKey.no {cd : Bool} {i : Nat} (h : BadKey buf cd i) {t : Bytes} {j : Nat}
    (hs : Strish goDialect buf cd i t j) : False := by
  cases hs with
  | lit hl =>
    cases h with
    | nested ht hc => exact hl.not_copy ht hc
    | ahead ht hc => exact hl.not_copy ht hc
    | again ht hc => exact hl.not_copy ht hc
  | copy hcd ht hc hv ho hl =>
    cases h with
    | nested ht' hc' =>
      rcases hcd with h | h
      · cases h
      · cases h
    | ahead ht' hc' hv' ho' =>
      obtain ⟨rfl, rfl⟩ := ht.unique ht'
      obtain ⟨rfl, rfl⟩ := hv.unique hv'
      omega
    | again ht' hc' hv' ho' ht2 hc2 =>
      obtain ⟨rfl, rfl⟩ := ht.unique ht'
      obtain ⟨rfl, rfl⟩ := hv.unique hv'
      exact hl.not_copy ht2 hc2

/-- An item with an offence is no item. -/
theorem BadRef.no {P : Tree → Prop} {off : Offence} {cd : Bool} {job : Job} {i : Nat} {T : Seen}
    (h : BadRef P buf off cd job i T) : ∀ out j T', ¬ G goDialect buf cd job i T out j T' := by
  induction h with
  | copyNested => intro _ _ _ g; cases g
  | copyAhead _ hv hi =>
    intro _ _ _ g
    cases g with
    | copy _ hv' ho => obtain ⟨rfl, rfl⟩ := hv.unique hv'; omega
  | copyIn hv ho _ ih =>
    intro _ _ _ g
    cases g with
    | copy _ hv' _ g => obtain ⟨rfl, rfl⟩ := hv.unique hv'; exact ih _ _ _ g
  | refp _ hv ho =>
    intro _ _ _ g
    cases g with
    | refp hv' h1 h2 =>
      obtain ⟨rfl, rfl⟩ := hv.unique hv'
      rcases ho with ho | ho
      · omega
      · rw [ho] at h2; cases h2
    | refpOpen hv' h1 h2 =>
      obtain ⟨rfl, rfl⟩ := hv.unique hv'
      rcases ho with ho | ho
      · omega
      · rw [ho] at h2; cases h2
  | alias _ hv ho =>
    intro _ _ _ g
    cases g with
    | alias hv' h1 h2 =>
      obtain ⟨rfl, rfl⟩ := hv.unique hv'
      rcases ho with ho | ho
      · omega
      · rw [ho] at h2; cases h2
    | aliasOpen hv' h1 h2 =>
      obtain ⟨rfl, rfl⟩ := hv.unique hv'
      rcases ho with ho | ho
      · omega
      · rw [ho] at h2; cases h2
  | plain ht hb _ ih =>
    intro _ _ _ g
    cases g with
    | plain ht' hb' g => obtain ⟨rfl, rfl⟩ := ht.unique ht'; exact ih _ _ _ g
    | tracked ht' hb' g => obtain ⟨rfl, rfl⟩ := ht.unique ht'; omega
  | tracked ht hb _ ih =>
    intro _ _ _ g
    cases g with
    | plain ht' hb' g => obtain ⟨rfl, rfl⟩ := ht.unique ht'; omega
    | tracked ht' hb' g => obtain ⟨rfl, rfl⟩ := ht.unique ht'; exact ih _ _ _ g
  | hash hv _ _ _ ih =>
    intro _ _ _ g
    cases g with
    | hash hv' _ g => obtain ⟨rfl, rfl⟩ := hv.unique hv'; exact ih _ _ _ g
  | hashref _ _ ih =>
    intro _ _ _ g
    cases g with
    | hashref g => exact ih _ _ _ g
  | array hv _ _ _ ih =>
    intro _ _ _ g
    cases g with
    | array hv' _ g => obtain ⟨rfl, rfl⟩ := hv.unique hv'; exact ih _ _ _ g
  | arrayref _ _ ih =>
    intro _ _ _ g
    cases g with
    | arrayref g => exact ih _ _ _ g
  | refn _ ih =>
    intro _ _ _ g
    cases g with
    | refn g => exact ih _ _ _ g
  | weaken _ ih =>
    intro _ _ _ g
    cases g with
    | weaken g => exact ih _ _ _ g
  | regexpPat _ hk =>
    intro _ _ _ g
    cases g with
    | regexp h1 _ => exact hk.no h1
  | regexpMod _ hp hk =>
    intro _ _ _ g
    cases g with
    | regexp h1 h2 => obtain ⟨rfl, rfl⟩ := hp.unique h1; exact hk.no h2
  | objectCls _ hk =>
    intro _ _ _ g
    cases g with
    | object h1 _ => exact hk.no h1
  | object hc _ ih =>
    intro _ _ _ g
    cases g with
    | object h1 g => obtain ⟨rfl, rfl⟩ := hc.unique h1; exact ih _ _ _ g
  | objectvCls _ hv _ hk =>
    intro _ _ _ g
    cases g with
    | objectv hv' _ h1 _ => obtain ⟨rfl, rfl⟩ := hv.unique hv'; exact hk.no h1
  | objectv hv _ hc _ ih =>
    intro _ _ _ g
    cases g with
    | objectv hv' _ h1 g => obtain ⟨rfl, rfl⟩ := hv.unique hv'; exact ih _ _ _ g
  | freezeCls _ hk =>
    intro _ _ _ g
    cases g with
    | freeze h1 _ => exact hk.no h1
  | freeze hc _ _ ih =>
    intro _ _ _ g
    cases g with
    | freeze h1 _ g => obtain ⟨rfl, rfl⟩ := hc.unique h1; exact ih _ _ _ g
  | freezevCls _ hv _ hk =>
    intro _ _ _ g
    cases g with
    | freezev hv' _ h1 _ => obtain ⟨rfl, rfl⟩ := hv.unique hv'; exact hk.no h1
  | freezev hv _ hc _ _ ih =>
    intro _ _ _ g
    cases g with
    | freezev hv' _ h1 _ g => obtain ⟨rfl, rfl⟩ := hv.unique hv'; exact ih _ _ _ g
  | itemsHead _ ih =>
    intro _ _ _ g
    cases g with
    | itemsCons g _ => exact ih _ _ _ g
  | itemsTail g1 _ _ ih =>
    intro _ _ _ g
    cases g with
    | itemsCons g1' g2 =>
      obtain ⟨_, rfl, rfl⟩ := g1.unique g1'
      exact ih _ _ _ g2
  | pairsKey _ hk =>
    intro _ _ _ g
    cases g with
    | pairsCons h1 _ _ => exact hk.no h1
  | pairsHead hk _ ih =>
    intro _ _ _ g
    cases g with
    | pairsCons h1 g _ => obtain ⟨rfl, rfl⟩ := hk.unique h1; exact ih _ _ _ g
  | pairsTail hk g1 _ _ ih =>
    intro _ _ _ g
    cases g with
    | pairsCons h1 g1' g2 =>
      obtain ⟨rfl, rfl⟩ := hk.unique h1
      obtain ⟨_, rfl, rfl⟩ := g1.unique g1'
      exact ih _ _ _ g2

end

end Sereal
