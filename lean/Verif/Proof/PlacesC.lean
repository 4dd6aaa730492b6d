import Verif.Proof.Places
/-
Places: leaves, loops and containers.
-/
namespace Sereal

/-- `rec` keeps items. -/
def Lodges (c : ViewCfg) (buf : Bytes) (rec : Nat → Loc → D Nat) : Prop :=
  ∀ i opn loc K s F j s', Ready c s F opn loc K → rec i loc s = (.ok j, s') → Lands c buf s F opn loc K (.item loc) i j s'

section
variable {cfg : DCfg} {buf : Bytes} {rec : Nat → Loc → D Nat}

/-- A leaf. -/
theorem leaf_lands {tc : TagC} (htc : tc.leaf = true) {f i j : Nat} {tr : Bool} {tag : Nat} {opn : List Nat} {loc : Loc}
    {K : Val → HObj} {s s' : DState} {F : Addr → Prop} (hint : ∀ n, tc = .int n → -16 ≤ n ∧ n ≤ 15)
    (hnum : ∀ n, tc = .short n ∨ tc = .arrayref n ∨ tc = .hashref n → n < 32) (hi : i ≤ buf.length)
    (r : Ready cfg.view s F opn loc K) (h : decodeC cfg buf (decode cfg buf f) tc tr i loc tag s = (.ok j, s')) :
    Lands cfg.view buf s F opn loc K (.body tc tr loc) i j s' := by
  have p : Pre cfg.view s (fun o => (s.tracked o).map fun _ => none) F loc K .nil := by
    refine ⟨⟨r.calm.lt, r.calm.canon, fun o => by simp, ?_⟩, r.free, r.lt, r.ctx, r.mem⟩
    intro o t ho
    cases hs : s.tracked o with
    | none => simp [hs] at ho
    | some l => simp [hs] at ho
  obtain ⟨t, T1, g1, F', v, A, h1, h2, h3⟩ := decodeC_sound (decode_sound cfg buf f) rfl tc tr i loc tag K s _ F .nil j s'
    hint hnum hi p h
  have hT : T1 = fun o => (s.tracked o).map fun _ => none := by
    generalize s.cd = cd at g1
    cases tc <;> first | (cases htc; done) | (cases g1; rfl)
  have htr : s'.tracked = s.tracked := by
    funext o
    rcases A.moves o with ⟨-, h⟩ | ⟨t, h⟩
    · exact h
    · rw [hT] at h
      cases hs : s.tracked o with
      | none => simp [hs] at h
      | some l => simp [hs] at h
  refine ⟨F', r.calm.commit r.free A.frame htr A.depth A.sub h1 A.inv.lt A.new, h1, ⟨v, h2⟩, ?_⟩
  intro hp ha
  rw [htr]
  exact .leaf htc g1 (by rw [r.ctx.read (by rw [ha _ h1]; exact h2)]; exact h3 hp ha)

theorem items_keep {c : ViewCfg} (hrec : Lodges c buf rec) {opn : List Nat} (n : Nat) : ∀ {a i j s s'} {F : Addr → Prop},
    Calm c s F opn → a + n ≤ s.heap.next → (∀ x, a ≤ x → x < a + n → ¬ F x ∧ s.heap.mem x = .cell .nil ∧
      ∀ o l, s.tracked o = some l → l.addr ≠ x) → arrayLoop rec n a i s = (.ok j, s') →
    ∃ F', Moves c s F opn (fun x => a ≤ x ∧ x < a + n) s' F' ∧
      LaidF c buf F' s'.heap s.cd opn (.items n a) i s.tracked j s'.tracked := by
  induction n with
  | zero =>
    intro a i j s s' F C hn hF h
    unfold arrayLoop at h
    obtain ⟨rfl, rfl⟩ := D.pure_ok.1 h
    exact ⟨F, Moves.refl C, fun _ _ => .itemsNil⟩
  | succ n ih =>
    intro a i j s s' F C hn hF h
    unfold arrayLoop at h
    obtain ⟨i1, s1, h1, h⟩ := D.bind_ok.1 h
    obtain ⟨ha1, ha2, ha3⟩ := hF a (Nat.le_refl _) (by omega)
    obtain ⟨F1, M1, hFa, ⟨v, hm⟩, k1⟩ := hrec i opn (.cell a) .cell s F i1 s1
      ⟨C, ha1, by simp only [Loc.addr]; omega, .cell a, ha2, fun o l h he => absurd he (ha3 o l h)⟩ h1
    simp only [Loc.addr] at M1 hFa hm
    have hnext := M1.frame.next
    obtain ⟨F2, M2, k2⟩ := ih (a := a + 1) M1.calm (by omega) (by
      intro x hx hx'
      obtain ⟨h2, h3, h4⟩ := hF x (by omega) (by omega)
      have h5 : ¬ F1 x := by
        intro h5
        rcases M1.new x h5 with h6 | h6 | h6
        · exact h2 h6
        · omega
        · omega
      refine ⟨h5, ?_, ?_⟩
      · rw [M1.frame.same x (by omega) (by omega)]; exact h3
      · intro o l ho
        rcases M1.fresh o l ho with h6 | h6
        · exact h4 o l h6
        · rintro rfl; exact h5 h6) h
    rw [M1.cd_eq] at k2
    refine ⟨F2, (M1.mono (fun x _ hx => by omega)).trans M2 (fun x _ hx => by omega), ?_⟩
    intro hp hag
    refine .itemsCons (v := v) ?_ (k1.moves M2 hp hag) (k2 hp hag)
    rw [hag _ (M2.sub _ hFa), M2.agree _ hFa]
    exact hm

theorem pairs_keep {c : ViewCfg} (hrec : Lodges c buf rec) {opn : List Nat} {m : Addr} (n : Nat) :
    ∀ {es i j s s'} {F : Addr → Prop}, Calm c s F opn → m < s.heap.next → ¬ F m → s.heap.mem m = .mp es →
    (∀ o l, s.tracked o = some l → l.addr ≠ m) → hashLoop buf rec m n i s = (.ok j, s') →
    ∃ F' as, Moves c s F opn (· = m) s' F' ∧ ¬ F' m ∧ as.length = n ∧
      s'.heap.mem m = .mp (insertAll (as.map fun x => (x.1, s'.heap.cellAt x.2)) es) ∧ (∀ x ∈ as, F' x.2) ∧
      LaidF c buf F' s'.heap s.cd opn (.pairs as) i s.tracked j s'.tracked := by
  induction n with
  | zero =>
    intro es i j s s' F C hm hF hes ht h
    unfold hashLoop at h
    obtain ⟨rfl, rfl⟩ := D.pure_ok.1 h
    exact ⟨F, [], Moves.refl C, hF, rfl, hes, by simp, fun _ _ => .pairsNil⟩
  | succ n ih =>
    intro es i j s s' F C hm hF hes ht h
    unfold hashLoop at h
    obtain ⟨⟨k, x⟩, s1, h1, h⟩ := D.bind_ok.1 h
    obtain ⟨hk, e1, -, -⟩ := decodeStringish_ok h1
    dsimp only at h
    rw [D.bind_eq (charge_apply _ _), D.bind_eq (allocVar_apply _ _)] at h
    obtain ⟨i2, s2, h2, h⟩ := D.bind_ok.1 h
    rw [D.bind_eq (readLoc_apply _ _), D.bind_eq (mapSet_apply _ _ _ _)] at h
    have C1 := C.eqv e1
    have hnext : s1.heap.next = s.heap.next := by rw [e1.heap]
    -- the fresh variable
    have M0 : Moves c s1 F opn (fun _ => False)
        { s1 with heap := (s1.heap.alloc (.cell .nil)).2, alloc := s1.alloc + k.length, peak := max s1.peak k.length } F :=
      C1.hold (fun _ h => h.elim) (Frame.alloc _ _ _) rfl rfl (fun _ _ _ h => h.elim)
    obtain ⟨F1, M1, hFa, ⟨v, hma⟩, k1⟩ := hrec x opn (.cell s1.heap.next) .cell _ F i2 s2
      ⟨M0.calm, fun hc => by have := C1.lt _ hc; simp only [Loc.addr] at this; omega,
        by simp only [Loc.addr, Heap.alloc_next]; omega, .cell _, Heap.alloc_mem _ _, (by
          intro o l ho hc
          have := (C1.known o l ho).1
          have hc' : l.addr = s1.heap.next := hc
          omega)⟩ h2
    have hval : s2.heap.read (.cell s1.heap.next) = v := Ctx.read (.cell _) hma
    simp only [Loc.addr] at M1 hFa hma
    rw [hval] at h
    have hm1 : s2.heap.mem m = .mp es := by
      rw [M1.frame.same m (by dsimp only; rw [Heap.alloc_next]; omega) (by omega)]
      dsimp only
      rw [Heap.alloc_old _ _ (by omega), e1.heap]
      exact hes
    have hF1 : ¬ F1 m := by
      intro hc
      rcases M1.new m hc with h5 | h5 | h5
      · exact hF h5
      · omega
      · dsimp only at h5; rw [Heap.alloc_next] at h5; omega
    have ht1 : ∀ o l, s2.tracked o = some l → l.addr ≠ m := by
      intro o l ho
      rcases M1.fresh o l ho with h5 | h5
      · dsimp only at h5
        rw [e1.tracked] at h5
        exact ht o l h5
      · rintro rfl; exact hF1 h5
    have hmap : s2.heap.mapAt m = es := by unfold Heap.mapAt; rw [hm1]
    rw [hmap] at h
    have M2 : Moves c s2 F1 opn (· = m) { s2 with heap := s2.heap.set m (.mp (mapInsert k v es)) } F1 :=
      M1.calm.hold (by rintro a rfl; exact hF1) (Frame.set _ _ _) rfl rfl (fun o l h he => absurd he (ht1 o l h))
    have hlt2 : m < s2.heap.next := by
      have := M1.frame.next
      dsimp only at this
      rw [Heap.alloc_next] at this; omega
    obtain ⟨F2, as, M3, hF2, hlen, hfin, has, k3⟩ := ih (es := mapInsert k v es) M2.calm hlt2 hF1 (by simp [Heap.set]) ht1 h
    have M01 : Moves c s F opn (· = m) s2 F1 :=
      ((M0.eqv e1).mono (W1 := (· = m)) (fun _ _ h => h.elim)).trans M1 (fun x hx hw => by omega)
    have M03 := (M01.trans M2 (fun _ _ h => h)).trans M3 (fun _ _ h => h)
    have hv : s'.heap.cellAt s1.heap.next = v := by
      have : s'.heap.mem s1.heap.next = .cell v := by rw [M3.agree _ hFa, M2.agree _ hFa]; exact hma
      unfold Heap.cellAt; rw [this]
    refine ⟨F2, (k, s1.heap.next) :: as, M03, hF2, by simp [hlen], ?_, ?_, ?_⟩
    · simp only [List.map_cons, hv]
      exact hfin
    · intro x hx
      rcases List.mem_cons.1 hx with rfl | hx
      · exact M3.sub _ hFa
      · exact has x hx
    · intro hp hag
      have k1' := (k1.moves M2).moves M3 hp hag
      have k3' := k3 hp hag
      rw [show DState.cd { s1 with heap := (s1.heap.alloc (.cell .nil)).2, alloc := s1.alloc + k.length, peak := max s1.peak k.length } = s.cd from e1.cd] at k1'
      rw [show DState.cd { s2 with heap := s2.heap.set m (.mp (mapInsert k v es)) } = s.cd from M01.cd_eq] at k3'
      dsimp only at k1' k3'
      rw [e1.tracked] at k1'
      exact .pairsCons hk k1' k3'

/-- An array, once its size is known. -/
theorem array_lands {c : ViewCfg} (hrec : Lodges c buf rec) {n i j : Nat} {opn : List Nat} {loc : Loc} {K : Val → HObj}
    {isRef : Bool} {s s' : DState} {F : Addr → Prop} (r : Ready c s F opn loc K)
    (hn : n < 2 ^ 64) (h : decodeArray buf rec i (sgn n) loc isRef s = (.ok j, s')) :
    ∃ F' p, Moves c s F opn (· = loc.addr) s' F' ∧ F' loc.addr ∧
      (∃ v, s'.heap.mem loc.addr = K v) ∧ LaidF c buf F' s'.heap s.cd opn (.items n p) i s.tracked j s'.tracked ∧
      ∀ hp, Agree F' s'.heap hp → if isRef = true then ∃ a, hp.read loc = .ptr false a ∧ hp.mem a = .cell (.slice p n)
        else hp.read loc = .slice p n := by
  unfold decodeArray at h
  obtain ⟨_, s1, h1, h⟩ := D.bind_ok.1 h
  obtain ⟨hsz, rfl⟩ := D.failIf_ok.1 h1
  have hle := (sgn_size hn).1 hsz
  have hsg : sgn n = n := sgn_small (by simp [maxSize] at hle; omega)
  rw [hsg] at h
  simp only [Int.toNat_natCast] at h
  obtain ⟨_, s1, h1, h⟩ := D.bind_ok.1 h
  obtain ⟨hlen, rfl⟩ := D.failIf_ok.1 h1
  rw [D.bind_eq (charge_apply _ _), D.bind_eq (allocSlice_apply _ _)] at h
  have hlt := r.lt
  -- after the slice has been stored
  have key : ∀ (hp : Heap) (w : Val) (al pk : Nat) (F0 : Addr → Prop), Frame (· = loc.addr) (s.heap.allocCells n).2 hp →
      hp.mem loc.addr = K w → (∀ a, F a → F0 a) → F0 loc.addr → (∀ a, F0 a → a < hp.next) →
      (∀ a, F0 a → F a ∨ a = loc.addr ∨ s.heap.next + max n 1 ≤ a) →
      arrayLoop rec n s.heap.next i { s with heap := hp, alloc := al, peak := pk } = (.ok j, s') →
      (∀ h' : Heap, Agree F0 hp h' → if isRef = true then ∃ a, h'.read loc = .ptr false a ∧
        h'.mem a = .cell (.slice s.heap.next n) else h'.read loc = .slice s.heap.next n) →
      ∃ F' p, Moves c s F opn (· = loc.addr) s' F' ∧ F' loc.addr ∧
        (∃ v, s'.heap.mem loc.addr = K v) ∧ LaidF c buf F' s'.heap s.cd opn (.items n p) i s.tracked j s'.tracked ∧
        ∀ hp, Agree F' s'.heap hp → if isRef = true then ∃ a, hp.read loc = .ptr false a ∧ hp.mem a = .cell (.slice p n)
          else hp.read loc = .slice p n := by
    intro hp w al pk F0 fr hm hs hl hlt0 hn0 h hv
    have f0 : Frame (· = loc.addr) s.heap hp := (Frame.allocCells _ s.heap n).trans fr (fun _ _ h => h)
    have hnext : s.heap.next + max n 1 ≤ hp.next := by
      have := fr.next; simpa [Heap.allocCells] using this
    have M1 : Moves c s F opn (· = loc.addr) { s with heap := hp, alloc := al, peak := pk } F0 :=
      r.calm.commit r.free f0 rfl rfl hs hl hlt0 (fun a ha => by
        rcases hn0 a ha with h | h | h
        · exact Or.inl h
        · exact Or.inr (Or.inl h)
        · exact Or.inr (Or.inr (by omega)))
    obtain ⟨F', M2, k2⟩ := items_keep hrec n (a := s.heap.next) M1.calm
      (by dsimp only; omega) (by
        intro x hx hx'
        refine ⟨?_, ?_, ?_⟩
        · intro hc
          rcases hn0 x hc with h | h | h
          · have := r.calm.lt x h; omega
          · omega
          · omega
        · dsimp only
          rw [fr.same x (by simp only [Heap.allocCells]; omega) (by omega)]
          simp only [Heap.allocCells]
          rw [if_pos (by omega)]
        · intro o l ho
          have := (r.calm.known o l ho).1
          omega) h
    refine ⟨F', s.heap.next, M1.trans M2 (fun x hx h => by omega), M2.sub _ hl, ⟨w, ?_⟩, k2, ?_⟩
    · rw [M2.agree _ hl]; exact hm
    · intro h' ha
      exact hv h' (M2.agree.trans (ha.mono M2.sub))
  have hl1 : loc.addr < (s.heap.allocCells n).2.next := by simp only [Heap.allocCells]; omega
  have hm1 : (s.heap.allocCells n).2.mem loc.addr = K .nil := by
    rw [(Frame.allocCells (fun _ => False) s.heap n).same _ hlt (fun h => h)]; exact r.mem
  have hnx : (s.heap.allocCells n).2.next = s.heap.next + max n 1 := rfl
  cases isRef with
  | false =>
    rw [if_neg (by simp), D.bind_eq (writeLoc_apply _ _ _)] at h
    have hmw := r.ctx.write (w := .slice s.heap.next n) hm1
    refine key _ (.slice s.heap.next n) _ _ (fun x => F x ∨ x = loc.addr) (Frame.write _ loc _) hmw
      (fun _ h => Or.inl h) (Or.inr rfl) ?_ ?_ h ?_
    · rintro a (h | rfl)
      · have := r.calm.lt a h; rw [Heap.write_next]; omega
      · rw [Heap.write_next]; omega
    · rintro a (h | h)
      · exact Or.inl h
      · exact Or.inr (Or.inl h)
    · intro h' ha
      rw [if_neg (by simp)]
      exact r.ctx.read (by rw [ha _ (Or.inr rfl)]; exact hmw)
  | true =>
    rw [if_pos rfl, D.bind_eq (allocVar_apply _ _), D.bind_eq (writeLoc_apply _ _ _)] at h
    have hmw := r.ctx.write (w := .ptr false (s.heap.allocCells n).2.next)
      (hp := ((s.heap.allocCells n).2.alloc (.cell (.slice s.heap.next n))).2) (v := .nil)
      (by rw [Heap.alloc_old _ _ hl1]; exact hm1)
    refine key _ (.ptr false (s.heap.allocCells n).2.next) _ _
      (fun x => F x ∨ x = loc.addr ∨ x = (s.heap.allocCells n).2.next)
      ((Frame.alloc _ _ _).trans (Frame.write _ loc _) (fun _ _ h => h)) hmw
      (fun _ h => Or.inl h) (Or.inr (Or.inl rfl)) ?_ ?_ h ?_
    · rintro a (h | rfl | rfl)
      · have := r.calm.lt a h; rw [Heap.write_next, Heap.alloc_next]; omega
      · rw [Heap.write_next, Heap.alloc_next]; omega
      · rw [Heap.write_next, Heap.alloc_next]; omega
    · rintro a (h | h | rfl)
      · exact Or.inl h
      · exact Or.inr (Or.inl h)
      · exact Or.inr (Or.inr (by omega))
    · intro h' ha
      rw [if_pos rfl]
      refine ⟨_, r.ctx.read (by rw [ha _ (Or.inr (Or.inl rfl))]; exact hmw), ?_⟩
      rw [ha _ (Or.inr (Or.inr rfl)), Heap.write_mem _ _ _ _ (by omega), Heap.alloc_mem]

/-- A hash, once its size is known. -/
theorem hash_lands {c : ViewCfg} (hrec : Lodges c buf rec) {n i j : Nat} {opn : List Nat} {loc : Loc} {K : Val → HObj}
    {isRef : Bool} {s s' : DState} {F : Addr → Prop} (r : Ready c s F opn loc K)
    (hn : n < 2 ^ 64) (h : decodeHash buf rec i (sgn n) loc isRef s = (.ok j, s')) :
    ∃ F' m as, Moves c s F opn (· = loc.addr) s' F' ∧ F' loc.addr ∧
      (∃ v, s'.heap.mem loc.addr = K v) ∧ LaidF c buf F' s'.heap s.cd opn (.pairs as) i s.tracked j s'.tracked ∧
      as.length = n ∧
      ∀ hp, Agree F' s'.heap hp → (if isRef = true then ∃ a, hp.read loc = .ptr false a ∧ hp.mem a = .cell (.smap m)
        else hp.read loc = .smap m) ∧ ∃ es, hp.mem m = .mp es ∧ (es.map Prod.fst).Nodup ∧
          ∀ k, mapLookup k es = lastLookup k (as.map fun x => (x.1, hp.cellAt x.2)) := by
  unfold decodeHash at h
  obtain ⟨_, s1, h1, h⟩ := D.bind_ok.1 h
  obtain ⟨hsz, rfl⟩ := D.failIf_ok.1 h1
  have hle := (sgn_size hn).1 hsz
  have hsg : sgn n = n := sgn_small (by simp [maxSize] at hle; omega)
  rw [hsg] at h
  simp only [Int.toNat_natCast] at h
  obtain ⟨_, s1, h1, h⟩ := D.bind_ok.1 h
  obtain ⟨hlen, rfl⟩ := D.failIf_ok.1 h1
  rw [D.bind_eq (charge_apply _ _), D.bind_eq (allocObj_apply _ _)] at h
  have hlt := r.lt
  -- after the map has been stored
  have key : ∀ (hp : Heap) (w : Val) (al pk : Nat) (F0 : Addr → Prop), Frame (· = loc.addr) (s.heap.alloc (.mp [])).2 hp →
      hp.mem loc.addr = K w → (∀ a, F a → F0 a) → F0 loc.addr → (∀ a, F0 a → a < hp.next) →
      (∀ a, F0 a → F a ∨ a = loc.addr ∨ s.heap.next + 1 ≤ a) →
      hashLoop buf rec s.heap.next n i { s with heap := hp, alloc := al, peak := pk } = (.ok j, s') →
      (∀ h' : Heap, Agree F0 hp h' → if isRef = true then ∃ a, h'.read loc = .ptr false a ∧
        h'.mem a = .cell (.smap s.heap.next) else h'.read loc = .smap s.heap.next) →
      ∃ F' m as, Moves c s F opn (· = loc.addr) s' F' ∧ F' loc.addr ∧
        (∃ v, s'.heap.mem loc.addr = K v) ∧ LaidF c buf F' s'.heap s.cd opn (.pairs as) i s.tracked j s'.tracked ∧
        as.length = n ∧
        ∀ hp, Agree F' s'.heap hp → (if isRef = true then ∃ a, hp.read loc = .ptr false a ∧ hp.mem a = .cell (.smap m)
          else hp.read loc = .smap m) ∧ ∃ es, hp.mem m = .mp es ∧ (es.map Prod.fst).Nodup ∧
            ∀ k, mapLookup k es = lastLookup k (as.map fun x => (x.1, hp.cellAt x.2)) := by
    intro hp w al pk F0 fr hm hs hl hlt0 hn0 h hv
    have f0 : Frame (· = loc.addr) s.heap hp := (Frame.alloc _ s.heap _).trans fr (fun _ _ h => h)
    have hnext : s.heap.next + 1 ≤ hp.next := fr.next
    have M1 : Moves c s F opn (· = loc.addr) { s with heap := hp, alloc := al, peak := pk } F0 :=
      r.calm.commit r.free f0 rfl rfl hs hl hlt0 (fun a ha => by
        rcases hn0 a ha with h | h | h
        · exact Or.inl h
        · exact Or.inr (Or.inl h)
        · exact Or.inr (Or.inr (by omega)))
    obtain ⟨F1, as, M2, hF1, hlen, hfin, has, k2⟩ := pairs_keep hrec (m := s.heap.next) n (es := []) M1.calm
      (by dsimp only; omega) (by
        intro hc
        rcases hn0 _ hc with h | h | h
        · have := r.calm.lt _ h; omega
        · omega
        · omega) (by
        dsimp only
        rw [fr.same _ (by rw [Heap.alloc_next]; omega) (by omega), Heap.alloc_mem]) (by
        intro o l ho
        have := (r.calm.known o l ho).1
        omega) h
    have hmx : s.heap.next < s'.heap.next := Nat.lt_of_lt_of_le (by omega) (Nat.le_trans hnext M2.frame.next)
    have M3 : Moves c s F opn (· = loc.addr) s' (fun x => F1 x ∨ x = s.heap.next) := by
      have M := M1.trans M2 (fun x hx h => by omega)
      refine ⟨⟨?_, ⟨Or.inl M.calm.canon.1, M.calm.canon.2⟩, ?_⟩, fun a h => Or.inl (M.sub a h), ?_, M.agree, M.frame, M.depth,
        fun o l h => (M.fresh o l h).imp_right Or.inl⟩
      · rintro a (h | rfl)
        · exact M.calm.lt a h
        · exact hmx
      · intro o l ho
        obtain ⟨h2, h3⟩ := M.calm.known o l ho
        exact ⟨h2, h3.imp_left Or.inl⟩
      · rintro a (h | rfl)
        · exact M.new a h
        · exact Or.inr (Or.inr (Nat.le_refl _))
    refine ⟨_, s.heap.next, as, M3, Or.inl (M2.sub _ hl), ⟨w, ?_⟩,
      k2.mono (fun _ h => Or.inl h) (Agree.refl _ _), hlen, ?_⟩
    · rw [M2.agree _ hl]; exact hm
    · intro h' ha
      have ha' : Agree F1 s'.heap h' := ha.mono (fun _ h => Or.inl h)
      refine ⟨hv h' (M2.agree.trans (ha'.mono M2.sub)), _, (ha _ (Or.inr rfl)).trans hfin,
        insertAll_nodup _ _ (by simp), ?_⟩
      intro k
      rw [insertAll_lookup]
      have : (as.map fun x => (x.1, s'.heap.cellAt x.2)) = as.map fun x => (x.1, h'.cellAt x.2) := by
        apply List.map_congr_left
        intro x hx
        have := ha' _ (has x hx)
        simp only [Heap.cellAt, this]
      rw [this]
      simp [mapLookup]
  have hl1 : loc.addr < (s.heap.alloc (.mp [])).2.next := by rw [Heap.alloc_next]; omega
  have hm1 : (s.heap.alloc (.mp [])).2.mem loc.addr = K .nil := by rw [Heap.alloc_old _ _ hlt]; exact r.mem
  have hnx : (s.heap.alloc (.mp [])).2.next = s.heap.next + 1 := rfl
  cases isRef with
  | false =>
    rw [if_neg (by simp), D.bind_eq (writeLoc_apply _ _ _)] at h
    have hmw := r.ctx.write (w := .smap s.heap.next) hm1
    refine key _ (.smap s.heap.next) _ _ (fun x => F x ∨ x = loc.addr) (Frame.write _ loc _) hmw
      (fun _ h => Or.inl h) (Or.inr rfl) ?_ ?_ h ?_
    · rintro a (h | rfl)
      · have := r.calm.lt a h; rw [Heap.write_next]; omega
      · rw [Heap.write_next]; omega
    · rintro a (h | h)
      · exact Or.inl h
      · exact Or.inr (Or.inl h)
    · intro h' ha
      rw [if_neg (by simp)]
      exact r.ctx.read (by rw [ha _ (Or.inr rfl)]; exact hmw)
  | true =>
    rw [if_pos rfl, D.bind_eq (allocVar_apply _ _), D.bind_eq (writeLoc_apply _ _ _)] at h
    have hmw := r.ctx.write (w := .ptr false (s.heap.alloc (.mp [])).2.next)
      (hp := ((s.heap.alloc (.mp [])).2.alloc (.cell (.smap s.heap.next))).2) (v := .nil)
      (by rw [Heap.alloc_old _ _ hl1]; exact hm1)
    refine key _ (.ptr false (s.heap.alloc (.mp [])).2.next) _ _
      (fun x => F x ∨ x = loc.addr ∨ x = (s.heap.alloc (.mp [])).2.next)
      ((Frame.alloc _ _ _).trans (Frame.write _ loc _) (fun _ _ h => h)) hmw
      (fun _ h => Or.inl h) (Or.inr (Or.inl rfl)) ?_ ?_ h ?_
    · rintro a (h | rfl | rfl)
      · have := r.calm.lt a h; rw [Heap.write_next]; simp only [Heap.alloc_next]; omega
      · rw [Heap.write_next]; simp only [Heap.alloc_next]; omega
      · rw [Heap.write_next]; simp only [Heap.alloc_next]; omega
    · rintro a (h | h | rfl)
      · exact Or.inl h
      · exact Or.inr (Or.inl h)
      · exact Or.inr (Or.inr (by omega))
    · intro h' ha
      rw [if_pos rfl]
      refine ⟨_, r.ctx.read (by rw [ha _ (Or.inr (Or.inl rfl))]; exact hmw), ?_⟩
      rw [ha _ (Or.inr (Or.inr rfl)), Heap.write_mem _ _ _ _ (by omega), Heap.alloc_mem]

end

end Sereal
