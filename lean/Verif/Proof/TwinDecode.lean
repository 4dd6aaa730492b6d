import Verif.Proof.Twin
import Verif.Proof.Comp
/-
The decoder on twins.
-/
namespace Sereal

section
variable {cfg : DCfg} {B1 B2 : Bytes}

theorem twin_leaf {P : List (Nat × Nat)} {i1 i2 j1 j2 : Nat} {s1 s2 : DState} {v : Val} {loc : Loc}
    (hs : Pair P i1 i2 s1 s2) (h1 : i1 ≤ j1) (h2 : i2 ≤ j2) :
    BothRun (Meet P j1 j2) ((do writeLoc loc v; pure j1 : D Nat) s1) ((do writeLoc loc v; pure j2 : D Nat) s2) := by
  rw [D.bind_eq (writeLoc_apply _ _ _), D.bind_eq (writeLoc_apply _ _ _)]
  exact ⟨rfl, rfl, Pair.move (by exact hs.step (by dsimp only; rw [hs.heap]) rfl rfl rfl rfl) h1 h2⟩

theorem twin_new {P : List (Nat × Nat)} {i1 i2 j1 j2 : Nat} {s1 s2 : DState} {v : Val} {loc : Loc} {w : Nat → Val}
    (hs : Pair P i1 i2 s1 s2) (h1 : i1 ≤ j1) (h2 : i2 ≤ j2) :
    BothRun (Meet P j1 j2) ((do let a ← allocVar v; writeLoc loc (w a); pure j1 : D Nat) s1)
      ((do let a ← allocVar v; writeLoc loc (w a); pure j2 : D Nat) s2) := by
  rw [D.bind_eq (allocVar_apply _ _), D.bind_eq (allocVar_apply _ _), hs.heap]
  exact twin_leaf (by exact hs.step rfl rfl rfl rfl rfl) h1 h2

theorem twin_binary {B : Bytes} (hlen : B.length ≤ maxSize) {i j : Nat} {t : Bytes} (h : Span B i t j)
    (hi : i ≤ B.length) (s : DState) : ∃ s', decodeBinary B i (sgn t.length) s = (.ok (t, j), s') ∧
      s'.heap = s.heap ∧ s'.tracked = s.tracked ∧ s'.copyDepth = s.copyDepth := by
  have hl := h.le_length hi
  have hj := h.2
  have hm : t.length ≤ maxSize := by omega
  exact ⟨_, (decodeBinary_ok hi (by simp only [maxSize] at hm; omega)).2 ⟨hm, h, rfl, rfl⟩, rfl, rfl, rfl⟩

theorem twin_hash (hl1 : B1.length ≤ maxSize) (hl2 : B2.length ≤ maxSize) {n : Nat} {P P' : List (Nat × Nat)}
    {i1 i2 j1 j2 : Nat} (g : Twin B1 B2 (.pairs n) P i1 i2 j1 j2 P') (hi1 : i1 ≤ B1.length) (hi2 : i2 ≤ B2.length)
    (ih : TwinRun cfg B1 B2 (.pairs n) P i1 i2 j1 j2 P') (f1 f2 : Nat) (s1 s2 : DState) (loc : Loc)
    (hf1 : j1 ≤ i1 + f1) (hf2 : j2 ≤ i2 + f2) (hs : Pair P i1 i2 s1 s2) :
    BothRun (Meet P' j1 j2) (decodeHash B1 (decode cfg B1 f1) i1 n loc false s1)
      (decodeHash B2 (decode cfg B2 f2) i2 n loc false s2) := by
  have hlt := g.lt
  simp only [TwinJob.need] at hlt
  have := hlt.2.2.1 hi1
  have := hlt.2.2.2 hi2
  have hneg : ¬ ((n : Int) < 0 ∨ (n : Int) > maxInt32) := by
    simp only [maxSize] at hl1; simp only [maxInt32]; omega
  unfold decodeHash
  rw [D.bind_eq (D.failIf_pass hneg), Int.toNat_natCast, D.bind_eq (D.failIf_pass (by omega)),
    D.bind_eq (charge_apply _ _), D.bind_eq (allocObj_apply _ _), if_neg (by simp), D.bind_eq (writeLoc_apply _ _ _),
    D.bind_eq (D.failIf_pass hneg), D.bind_eq (D.failIf_pass (by omega)),
    D.bind_eq (charge_apply _ _), D.bind_eq (allocObj_apply _ _), if_neg (by simp), D.bind_eq (writeLoc_apply _ _ _)]
  dsimp only
  rw [hs.heap]
  exact ih f1 f2 _ _ hf1 hf2 (by exact hs.step rfl rfl rfl rfl rfl) _

theorem twin_array (hl1 : B1.length ≤ maxSize) (hl2 : B2.length ≤ maxSize) {n : Nat} {P P' : List (Nat × Nat)}
    {i1 i2 j1 j2 : Nat} (g : Twin B1 B2 (.items n) P i1 i2 j1 j2 P') (hi1 : i1 ≤ B1.length) (hi2 : i2 ≤ B2.length)
    (ih : TwinRun cfg B1 B2 (.items n) P i1 i2 j1 j2 P') (f1 f2 : Nat) (s1 s2 : DState) (loc : Loc)
    (hf1 : j1 ≤ i1 + f1) (hf2 : j2 ≤ i2 + f2) (hs : Pair P i1 i2 s1 s2) :
    BothRun (Meet P' j1 j2) (decodeArray B1 (decode cfg B1 f1) i1 n loc false s1)
      (decodeArray B2 (decode cfg B2 f2) i2 n loc false s2) := by
  have hlt := g.lt
  simp only [TwinJob.need] at hlt
  have := hlt.2.2.1 hi1
  have := hlt.2.2.2 hi2
  have hneg : ¬ ((n : Int) < 0 ∨ (n : Int) > maxInt32) := by
    simp only [maxSize] at hl1; simp only [maxInt32]; omega
  unfold decodeArray
  rw [D.bind_eq (D.failIf_pass hneg), Int.toNat_natCast, D.bind_eq (D.failIf_pass (by omega)),
    D.bind_eq (charge_apply _ _), D.bind_eq (allocSlice_apply _ _), if_neg (by simp), D.bind_eq (writeLoc_apply _ _ _),
    D.bind_eq (D.failIf_pass hneg), D.bind_eq (D.failIf_pass (by omega)),
    D.bind_eq (charge_apply _ _), D.bind_eq (allocSlice_apply _ _), if_neg (by simp), D.bind_eq (writeLoc_apply _ _ _)]
  dsimp only
  rw [hs.heap]
  exact ih f1 f2 _ _ hf1 hf2 (by exact hs.step rfl rfl rfl rfl rfl) _

theorem twin_refn {P P' : List (Nat × Nat)} {i1 i2 j1 j2 : Nat} (g : Twin B1 B2 .item P i1 i2 j1 j2 P')
    (ih : TwinRun cfg B1 B2 .item P i1 i2 j1 j2 P') (f1 f2 : Nat) (s1 s2 : DState) (loc : Loc) (tr : Bool)
    (hf1 : j1 ≤ i1 + f1) (hf2 : j2 ≤ i2 + f2) (hs : Pair P i1 i2 s1 s2) :
    BothRun (Meet P' j1 j2) (decodeRefn cfg (decode cfg B1 f1) tr i1 loc s1)
      (decodeRefn cfg (decode cfg B2 f2) tr i2 loc s2) := by
  unfold decodeRefn
  by_cases hpc : cfg.perlCompat = true
  · rw [if_pos hpc, if_pos hpc, D.bind_eq (allocVar_apply _ _), D.bind_eq (writeLoc_apply _ _ _),
      D.bind_eq (allocVar_apply _ _), D.bind_eq (writeLoc_apply _ _ _)]
    dsimp only
    rw [hs.heap]
    refine BothRun.bind (ih f1 f2 _ _ hf1 hf2 (by exact hs.step rfl rfl rfl rfl rfl) _) ?_
    rintro a b t1 t2 ⟨rfl, rfl, ht⟩
    by_cases htr : tr = true
    · rw [if_pos htr, if_pos htr]
      exact ⟨rfl, rfl, ht⟩
    · rw [if_neg htr, if_neg htr, D.bind_eq (readLoc_apply _ _), D.bind_eq (readLoc_apply _ _), ht.heap]
      by_cases hv : t2.heap.read (.cell s2.heap.next) = .nil
      · rw [if_pos hv, if_pos hv]
        exact rfl
      · rw [if_neg hv, if_neg hv]
        exact twin_new (w := fun b => .ptr false b) ht (Nat.le_refl _) (Nat.le_refl _)
  · rw [if_neg hpc, if_neg hpc]
    exact ih f1 f2 _ _ hf1 hf2 hs loc

theorem twin_refp (hl1 : B1.length ≤ maxSize) (hl2 : B2.length ≤ maxSize) {P Q : List (Nat × Nat)}
    {i1 i2 o1 o2 j1 j2 : Nat} (v1 : Vint wrtDialect B1 i1 o1 j1) (v2 : Vint wrtDialect B2 i2 o2 j2)
    (ho : (o1, o2) ∈ P) (s1 s2 : DState) (loc : Loc) (hs : Pair P i1 i2 s1 s2) (hq : P = Q) :
    BothRun (Meet Q j1 j2) (decodeRefpAlias cfg B1 i1 true loc s1) (decodeRefpAlias cfg B2 i2 true loc s2) := by
  subst hq
  obtain ⟨e1, -, hj1⟩ := varint_twin v1 s1
  obtain ⟨e2, -, hj2⟩ := varint_twin v2 s2
  have hk1 := v1.lt
  have hk2 := v2.lt
  have hb1 := v1.le_length
  have hb2 := v2.le_length
  obtain ⟨hx, hy, ht⟩ := hs.seen o1 o2 ho
  simp only [maxSize] at hl1 hl2
  unfold decodeRefpAlias
  rw [D.bind_eq e1, D.bind_eq e2]
  dsimp only
  rw [hj1, hj2, sgn_small (by omega), sgn_small (by omega), D.bind_eq (D.failIf_pass (by omega)),
    D.bind_eq (D.failIf_pass (by omega)), Int.toNat_natCast, Int.toNat_natCast, D.bind_eq (D.get_apply _),
    D.bind_eq (D.get_apply _), ht]
  cases s2.tracked o2 with
  | none => exact rfl
  | some l =>
    dsimp only
    rw [D.bind_eq (readLoc_apply _ _), D.bind_eq (readLoc_apply _ _), hs.heap, if_pos rfl, if_pos rfl]
    by_cases hv : s2.heap.read l = .nil
    · rw [if_pos hv, if_pos hv]
      exact rfl
    · rw [if_neg hv, if_neg hv]
      by_cases hd : cfg.disableRefInt = true
      · rw [if_pos hd, if_pos hd]
        exact twin_leaf hs (by omega) (by omega)
      · rw [if_neg hd, if_neg hd]
        exact twin_new (w := fun b => .ptr false b) hs (by omega) (by omega)

theorem twin_object (hl1 : B1.length ≤ maxSize) (hl2 : B2.length ≤ maxSize) {P P' : List (Nat × Nat)}
    {i1 i2 k1 k2 j1 j2 : Nat} {cls : Bytes} (c1 : Strish wrtDialect B1 false i1 cls k1)
    (c2 : Strish wrtDialect B2 false i2 cls k2) (g : Twin B1 B2 .item P k1 k2 j1 j2 P')
    (ih : TwinRun cfg B1 B2 .item P k1 k2 j1 j2 P') (f1 f2 : Nat) (s1 s2 : DState) (loc : Loc)
    (hf1 : j1 ≤ i1 + f1) (hf2 : j2 ≤ i2 + f2) (hs : Pair P i1 i2 s1 s2) :
    BothRun (Meet P' j1 j2) (decodeObject cfg B1 (decode cfg B1 f1) i1 loc false s1)
      (decodeObject cfg B2 (decode cfg B2 f2) i2 loc false s2) := by
  have hk1 := c1.lt
  have hk2 := c2.lt
  have hlt := g.lt
  simp only [TwinJob.need] at hlt
  have := hlt.2.2.1 hk1.2
  have := hlt.2.2.2 hk2.2
  obtain ⟨t1, e1, a1, a2, a3⟩ := string_twin hl1 c1 hs.depth1
  obtain ⟨t2, e2, b1, b2, b3⟩ := string_twin hl2 c2 hs.depth2
  have ht : Pair P k1 k2 t1 t2 :=
    (hs.step (by rw [a1, b1, hs.heap]) a2 b2 a3 b3).move (by omega) (by omega)
  unfold decodeObject decodeClassName
  rw [if_neg (by simp), D.bind_eq e1, if_neg (by simp), D.bind_eq e2]
  dsimp only
  by_cases hpc : cfg.perlCompat = true
  · rw [if_pos hpc, if_pos hpc, D.bind_eq (charge_apply _ _), D.bind_eq (allocVar_apply _ _),
      D.bind_eq (writeLoc_apply _ _ _), D.bind_eq (charge_apply _ _), D.bind_eq (allocVar_apply _ _),
      D.bind_eq (writeLoc_apply _ _ _)]
    dsimp only
    rw [ht.heap]
    exact ih f1 f2 _ _ (by omega) (by omega) (by exact ht.step rfl rfl rfl rfl rfl) _
  · rw [if_neg hpc, if_neg hpc]
    unfold decodeIface
    rw [D.bind_eq (D.failIf_pass (by omega)), D.bind_eq (D.failIf_pass (by omega)), D.bind_eq (readLoc_apply _ _),
      D.bind_eq (readLoc_apply _ _), ht.heap]
    by_cases hn : t2.heap.read loc = .nil
    · rw [D.bind_eq (D.failIf_pass (by simp [hn])), D.bind_eq (D.failIf_pass (by simp [hn])),
        D.bind_eq (allocVar_apply _ _), D.bind_eq (allocVar_apply _ _), ht.heap]
      refine BothRun.bind (ih f1 f2 _ _ (by omega) (by omega) (by exact ht.step rfl rfl rfl rfl rfl) _) ?_
      rintro a b u1 u2 ⟨rfl, rfl, hu⟩
      rw [D.bind_eq (readLoc_apply _ _), D.bind_eq (readLoc_apply _ _), hu.heap]
      by_cases hv : u2.heap.read (.cell t2.heap.next) = .nil
      · rw [if_neg (by simp [hv]), if_neg (by simp [hv])]
        exact ⟨rfl, rfl, hu⟩
      · rw [if_pos hv, if_pos hv]
        exact twin_leaf hu (Nat.le_refl _) (Nat.le_refl _)
    · rw [D.bind_err (D.failIf_error.2 ⟨hn, rfl, rfl⟩), D.bind_err (D.failIf_error.2 ⟨hn, rfl, rfl⟩)]
      exact rfl

theorem twin_freeze (hl1 : B1.length ≤ maxSize) (hl2 : B2.length ≤ maxSize) {P P' : List (Nat × Nat)}
    {i1 i2 k1 k2 j1 j2 : Nat} {cls : Bytes} (c1 : Strish wrtDialect B1 false i1 cls k1)
    (c2 : Strish wrtDialect B2 false i2 cls k2) (p1 : Span B1 k1 [0x28, 0x2b] (k1 + 2))
    (p2 : Span B2 k2 [0x28, 0x2b] (k2 + 2)) (g : Twin B1 B2 .item P k1 k2 j1 j2 P')
    (ih : TwinRun cfg B1 B2 .item P k1 k2 j1 j2 P') (f1 f2 : Nat) (s1 s2 : DState) (loc : Loc)
    (hf1 : j1 ≤ i1 + f1) (hf2 : j2 ≤ i2 + f2) (hs : Pair P i1 i2 s1 s2) :
    BothRun (Meet P' j1 j2) (decodeFreeze cfg B1 (decode cfg B1 f1) i1 loc false s1)
      (decodeFreeze cfg B2 (decode cfg B2 f2) i2 loc false s2) := by
  have hk1 := c1.lt
  have hk2 := c2.lt
  obtain ⟨t1, e1, a1, a2, a3⟩ := string_twin hl1 c1 hs.depth1
  obtain ⟨t2, e2, b1, b2, b3⟩ := string_twin hl2 c2 hs.depth2
  have ht : Pair P k1 k2 t1 t2 :=
    (hs.step (by rw [a1, b1, hs.heap]) a2 b2 a3 b3).move (by omega) (by omega)
  have hd : ∀ {B : Bytes} {k : Nat}, Span B k [0x28, 0x2b] (k + 2) → B[k]? = some 0x28 ∧ B[k + 1]? = some 0x2b := by
    intro B k h
    constructor
    · have := getElem?_of_span h 0 (by simp); simpa using this
    · have := getElem?_of_span h 1 (by simp); simpa using this
  obtain ⟨x1, y1⟩ := hd p1
  obtain ⟨x2, y2⟩ := hd p2
  have hz1 := (List.getElem?_eq_some_iff.mp y1).1
  have hz2 := (List.getElem?_eq_some_iff.mp y2).1
  unfold decodeFreeze decodeClassName
  rw [if_neg (by simp), D.bind_eq e1, if_neg (by simp), D.bind_eq e2]
  dsimp only
  rw [D.bind_eq (D.failIf_pass (by omega)), D.bind_eq (byteAt_ok.2 ⟨x1, rfl⟩),
    D.bind_eq (byteAt_ok.2 ⟨y1, rfl⟩), D.bind_eq (D.failIf_pass (by decide)),
    D.bind_eq (allocVar_apply _ _), D.bind_eq (D.failIf_pass (by omega)), D.bind_eq (byteAt_ok.2 ⟨x2, rfl⟩),
    D.bind_eq (byteAt_ok.2 ⟨y2, rfl⟩), D.bind_eq (D.failIf_pass (by decide)),
    D.bind_eq (allocVar_apply _ _), ht.heap]
  refine BothRun.bind (ih f1 f2 _ _ (by omega) (by omega) (by exact ht.step rfl rfl rfl rfl rfl) _) ?_
  rintro a b u1 u2 ⟨rfl, rfl, hu⟩
  rw [D.bind_eq (readLoc_apply _ _), D.bind_eq (readLoc_apply _ _), hu.heap]
  generalize u2.heap.read (.cell t2.heap.next) = w
  split
  · rename_i p n
    by_cases hn : n = 1
    · rw [D.bind_eq (D.failIf_pass (by simp [hn])), D.bind_eq (D.failIf_pass (by simp [hn])),
        D.bind_eq (readLoc_apply _ _), D.bind_eq (readLoc_apply _ _), hu.heap]
      generalize u2.heap.read (.cell p) = x
      split
      · rename_i data
        rw [D.bind_eq (charge_apply _ _), D.bind_eq (charge_apply _ _)]
        have hu' : Pair P' a b { u1 with alloc := u1.alloc + cls.length, peak := max u1.peak cls.length }
          { u2 with alloc := u2.alloc + cls.length, peak := max u2.peak cls.length } :=
          hu.step hu.heap rfl rfl rfl rfl
        by_cases hpc : cfg.perlCompat = true
        · rw [if_pos hpc, if_pos hpc]
          exact twin_new (w := fun b => .ptr false b) hu' (Nat.le_refl _) (Nat.le_refl _)
        · rw [if_neg hpc, if_neg hpc, D.bind_eq (readLoc_apply _ _), D.bind_eq (readLoc_apply _ _)]
          dsimp only
          rw [hu.heap]
          by_cases hnil : u2.heap.read loc = .nil
          · rw [D.bind_eq (D.failIf_pass (by simp [hnil])), D.bind_eq (D.failIf_pass (by simp [hnil]))]
            cases cfg.registry cls with
            | none => exact twin_new (w := fun b => .ptr false b) (by exact hu'.step rfl rfl rfl rfl rfl) (Nat.le_refl _) (Nat.le_refl _)
            | some u =>
              dsimp only
              cases u data with
              | none => exact twin_new (w := fun b => .ptr false b) (by exact hu'.step rfl rfl rfl rfl rfl) (Nat.le_refl _) (Nat.le_refl _)
              | some n => exact rfl
          · rw [D.bind_err (D.failIf_error.2 ⟨hnil, rfl, rfl⟩), D.bind_err (D.failIf_error.2 ⟨hnil, rfl, rfl⟩)]
            exact rfl
      · exact rfl
    · rw [D.bind_err (D.failIf_error.2 ⟨hn, rfl, rfl⟩), D.bind_err (D.failIf_error.2 ⟨hn, rfl, rfl⟩)]
      exact rfl
  · exact rfl

/-- The decoder treats twins alike. -/
theorem twin_run (hl1 : B1.length ≤ maxSize) (hl2 : B2.length ≤ maxSize) {job : TwinJob} {P P' : List (Nat × Nat)}
    {i1 i2 j1 j2 : Nat} (h : Twin B1 B2 job P i1 i2 j1 j2 P') : TwinRun cfg B1 B2 job P i1 i2 j1 j2 P' := by
  have hd : ∀ {B : Bytes} {i : Nat} {b : UInt8}, B[i]? = some b → i + 1 ≤ B.length :=
    fun h => (List.getElem?_eq_some_iff.mp h).1
  induction h with
  | @bare P i1 i2 b h1 h2 hc =>
    refine twin_head h1 h2 (by intro h; rw [h] at hc; cases hc) ?_ (by omega) (by omega)
    intro f1 f2 s1 s2 loc _ _ hs
    unfold decodeC
    cases h : classify (b.toNat % 128) <;> rw [h] at hc <;> try cases hc
    · exact twin_leaf hs (Nat.le_refl _) (Nat.le_refl _)
    · dsimp only
      by_cases hpc : cfg.perlCompat = true
      · rw [if_pos hpc, if_pos hpc]
        exact twin_new (w := fun b => .ptr false b) hs (Nat.le_refl _) (Nat.le_refl _)
      · rw [if_neg hpc, if_neg hpc]
        exact twin_leaf hs (Nat.le_refl _) (Nat.le_refl _)
    · dsimp only
      by_cases hpc : cfg.perlCompat = true
      · rw [if_pos hpc, if_pos hpc]
        exact twin_leaf hs (Nat.le_refl _) (Nat.le_refl _)
      · rw [if_neg hpc, if_neg hpc]
        exact twin_leaf hs (Nat.le_refl _) (Nat.le_refl _)
    · exact twin_leaf hs (Nat.le_refl _) (Nat.le_refl _)
    · exact twin_leaf hs (Nat.le_refl _) (Nat.le_refl _)
  | num h1 h2 hc v1 v2 =>
    have hk1 := v1.lt
    have hk2 := v2.lt
    refine twin_head h1 h2 (by rcases hc with hc | hc <;> rw [hc] <;> simp) ?_ (by omega) (by omega)
    intro f1 f2 s1 s2 loc _ _ hs
    obtain ⟨e1, -, hj1⟩ := varint_twin v1 s1
    obtain ⟨e2, -, hj2⟩ := varint_twin v2 s2
    unfold decodeC
    rcases hc with hc | hc <;> rw [hc] <;> dsimp only <;> rw [D.bind_eq e1, D.bind_eq e2] <;> dsimp only <;>
      rw [hj1, hj2]
    · split
      · exact twin_leaf hs (by omega) (by omega)
      · exact twin_leaf hs (by omega) (by omega)
    · exact twin_leaf hs (by omega) (by omega)
  | float h1 h2 hc p1 p2 hl =>
    have hk1 := p1.2
    have hk2 := p2.2
    refine twin_head h1 h2 (by rw [hc]; simp) ?_ (by omega) (by omega)
    intro f1 f2 s1 s2 loc _ _ hs
    unfold decodeC
    rw [hc]
    dsimp only
    rw [D.bind_eq (decodeFloat_of s1 p1 hl), D.bind_eq (decodeFloat_of s2 p2 hl)]
    exact twin_leaf hs (by omega) (by omega)
  | double h1 h2 hc p1 p2 hl =>
    have hk1 := p1.2
    have hk2 := p2.2
    refine twin_head h1 h2 (by rw [hc]; simp) ?_ (by omega) (by omega)
    intro f1 f2 s1 s2 loc _ _ hs
    unfold decodeC
    rw [hc]
    dsimp only
    rw [D.bind_eq (decodeDouble_of s1 p1 hl), D.bind_eq (decodeDouble_of s2 p2 hl)]
    exact twin_leaf hs (by omega) (by omega)
  | str h1 h2 hc v1 v2 p1 p2 =>
    have hk1 := v1.lt
    have hk2 := v2.lt
    have hm1 := p1.2
    have hm2 := p2.2
    refine twin_head h1 h2 (by rcases hc with hc | hc <;> rw [hc] <;> simp) ?_ (by omega) (by omega)
    intro f1 f2 s1 s2 loc _ _ hs
    obtain ⟨e1, -, hj1⟩ := varint_twin v1 s1
    obtain ⟨e2, -, hj2⟩ := varint_twin v2 s2
    obtain ⟨t1, d1, a1, a2, a3⟩ := twin_binary hl1 p1 v1.le_length s1
    obtain ⟨t2, d2, b1, b2, b3⟩ := twin_binary hl2 p2 v2.le_length s2
    have ht := hs.step (by rw [a1, b1, hs.heap]) a2 b2 a3 b3
    unfold decodeC
    rcases hc with hc | hc <;> rw [hc] <;> dsimp only <;> rw [D.bind_eq e1, D.bind_eq e2] <;> dsimp only <;>
      rw [hj1, hj2, D.bind_eq d1, D.bind_eq d2] <;> exact twin_leaf ht (by omega) (by omega)
  | @short P i1 i2 b s j1 j2 h1 h2 hc p1 p2 =>
    have hm1 := p1.2
    have hm2 := p2.2
    refine twin_head h1 h2 (by rw [hc]; simp) ?_ (by omega) (by omega)
    intro f1 f2 s1 s2 loc _ _ hs
    obtain ⟨t1, d1, a1, a2, a3⟩ := twin_binary hl1 p1 (hd h1) s1
    obtain ⟨t2, d2, b1, b2, b3⟩ := twin_binary hl2 p2 (hd h2) s2
    have ht := hs.step (by rw [a1, b1, hs.heap]) a2 b2 a3 b3
    have hn := classify_num (n := s.length) (b := b.toNat % 128) (by omega) (.inl hc)
    rw [sgn_small (by omega)] at d1 d2
    unfold decodeC
    rw [hc]
    dsimp only
    rw [D.bind_eq d1, D.bind_eq d2]
    exact twin_leaf ht (by omega) (by omega)
  | @array P i1 i2 b n k1 k2 j1 j2 P' h1 h2 hc v1 v2 g ih =>
    have hk1 := v1.lt
    have hk2 := v2.lt
    have hlt := g.lt
    simp only [TwinJob.need] at hlt
    have := hlt.2.2.1 v1.le_length
    have hn : n < 2 ^ 63 := by simp only [maxSize] at hl1; omega
    refine twin_head h1 h2 (by rw [hc]; simp) ?_ (by omega) (by omega)
    intro f1 f2 s1 s2 loc hf1 hf2 hs
    obtain ⟨e1, -, hj1⟩ := varint_twin v1 s1
    obtain ⟨e2, -, hj2⟩ := varint_twin v2 s2
    unfold decodeC
    rw [hc]
    dsimp only
    rw [D.bind_eq e1, D.bind_eq e2]
    dsimp only
    rw [hj1, hj2, sgn_small hn]
    exact twin_array hl1 hl2 g v1.le_length v2.le_length ih f1 f2 _ _ loc (by omega) (by omega)
      (hs.move (by omega) (by omega))
  | @hash P i1 i2 b n k1 k2 j1 j2 P' h1 h2 hc v1 v2 g ih =>
    have hk1 := v1.lt
    have hk2 := v2.lt
    have hlt := g.lt
    simp only [TwinJob.need] at hlt
    have := hlt.2.2.1 v1.le_length
    have hn : n < 2 ^ 63 := by simp only [maxSize] at hl1; omega
    refine twin_head h1 h2 (by rw [hc]; simp) ?_ (by omega) (by omega)
    intro f1 f2 s1 s2 loc hf1 hf2 hs
    obtain ⟨e1, -, hj1⟩ := varint_twin v1 s1
    obtain ⟨e2, -, hj2⟩ := varint_twin v2 s2
    unfold decodeC
    rw [hc]
    dsimp only
    rw [D.bind_eq e1, D.bind_eq e2]
    dsimp only
    rw [hj1, hj2, sgn_small hn]
    exact twin_hash hl1 hl2 g v1.le_length v2.le_length ih f1 f2 _ _ loc (by omega) (by omega)
      (hs.move (by omega) (by omega))
  | refn h1 h2 hc g ih =>
    have hlt := g.lt
    simp only [TwinJob.need] at hlt
    refine twin_head h1 h2 (by rw [hc]; simp) ?_ (by omega) (by omega)
    intro f1 f2 s1 s2 loc hf1 hf2 hs
    unfold decodeC
    rw [hc]
    exact twin_refn g ih f1 f2 _ _ loc _ hf1 hf2 hs
  | weaken h1 h2 hc g ih =>
    have hlt := g.lt
    simp only [TwinJob.need] at hlt
    refine twin_head h1 h2 (by rw [hc]; simp) ?_ (by omega) (by omega)
    intro f1 f2 s1 s2 loc hf1 hf2 hs
    unfold decodeC
    rw [hc]
    dsimp only
    by_cases hpc : cfg.perlCompat = true
    · rw [if_pos hpc, if_pos hpc, D.bind_eq (allocVar_apply _ _), D.bind_eq (writeLoc_apply _ _ _),
        D.bind_eq (allocVar_apply _ _), D.bind_eq (writeLoc_apply _ _ _)]
      dsimp only
      rw [hs.heap]
      exact ih f1 f2 _ _ hf1 hf2 (by exact hs.step rfl rfl rfl rfl rfl) _
    · rw [if_neg hpc, if_neg hpc]
      exact ih f1 f2 _ _ hf1 hf2 hs loc
  | refp h1 h2 hc v1 v2 ho =>
    have hk1 := v1.lt
    have hk2 := v2.lt
    refine twin_head h1 h2 (by rw [hc]; simp) ?_ (by omega) (by omega)
    intro f1 f2 s1 s2 loc hf1 hf2 hs
    unfold decodeC
    rw [hc]
    exact twin_refp hl1 hl2 v1 v2 (List.mem_cons_of_mem _ ho) s1 s2 loc hs rfl
  | regexp h1 h2 hc p1 p2 m1 m2 =>
    have := p1.lt; have := p2.lt; have := m1.lt; have := m2.lt
    refine twin_head h1 h2 (by rw [hc]; simp) ?_ (by omega) (by omega)
    intro f1 f2 s1 s2 loc hf1 hf2 hs
    obtain ⟨t1, e1, a1, a2, a3⟩ := string_twin hl1 p1 hs.depth1
    obtain ⟨t2, e2, b1, b2, b3⟩ := string_twin hl2 p2 hs.depth2
    have ht := hs.step (by rw [a1, b1, hs.heap]) a2 b2 a3 b3
    obtain ⟨u1, e3, a4, a5, a6⟩ := string_twin hl1 m1 ht.depth1
    obtain ⟨u2, e4, b4, b5, b6⟩ := string_twin hl2 m2 ht.depth2
    have hu := ht.step (by rw [a4, b4, ht.heap]) a5 b5 a6 b6
    have r1 : ∀ {B : Bytes} {s t u : DState} {i k j : Nat} {p m : Bytes}, decodeStringish B i s = (.ok (p, k), t) →
        decodeStringish B k t = (.ok (m, j), u) → decodeRegexp B i s = (.ok (p, m, j), u) := by
      intro B s t u i k j p m h h'
      unfold decodeRegexp
      rw [D.bind_eq h]
      dsimp only
      rw [D.bind_eq h']
      rfl
    unfold decodeC
    rw [hc]
    dsimp only
    rw [D.bind_eq (r1 e1 e3), D.bind_eq (r1 e2 e4)]
    exact twin_new (w := fun b => .ptr false b) hu (by omega) (by omega)
  | object h1 h2 hc c1 c2 g ih =>
    have := c1.lt; have := c2.lt
    have hlt := g.lt
    simp only [TwinJob.need] at hlt
    refine twin_head h1 h2 (by rw [hc]; simp) ?_ (by omega) (by omega)
    intro f1 f2 s1 s2 loc hf1 hf2 hs
    unfold decodeC
    rw [hc]
    exact twin_object hl1 hl2 c1 c2 g ih f1 f2 _ _ loc (by omega) (by omega) hs
  | freeze h1 h2 hc c1 c2 p1 p2 g ih =>
    have := c1.lt; have := c2.lt
    have hlt := g.lt
    simp only [TwinJob.need] at hlt
    refine twin_head h1 h2 (by rw [hc]; simp) ?_ (by omega) (by omega)
    intro f1 f2 s1 s2 loc hf1 hf2 hs
    unfold decodeC
    rw [hc]
    exact twin_freeze hl1 hl2 c1 c2 p1 p2 g ih f1 f2 _ _ loc (by omega) (by omega) hs
  | itemsNil =>
    intro f1 f2 s1 s2 _ _ hs a
    unfold arrayLoop
    exact ⟨rfl, rfl, hs⟩
  | itemsCons g1 g2 ih1 ih2 =>
    intro f1 f2 s1 s2 hf1 hf2 hs a
    have hlt1 := g1.lt
    have hlt2 := g2.lt
    simp only [TwinJob.need] at hlt1 hlt2
    unfold arrayLoop
    refine BothRun.bind (ih1 f1 f2 _ _ (by omega) (by omega) hs (.cell a)) ?_
    rintro x y t1 t2 ⟨rfl, rfl, ht⟩
    exact ih2 f1 f2 _ _ (by omega) (by omega) ht (a + 1)
  | pairsNil =>
    intro f1 f2 s1 s2 _ _ hs m
    unfold hashLoop
    exact ⟨rfl, rfl, hs⟩
  | @pairsCons P i1 i2 key h1 h2 k1 k2 P1 n j1 j2 P' c1 c2 g1 g2 ih1 ih2 =>
    intro f1 f2 s1 s2 hf1 hf2 hs m
    have hx1 := c1.lt
    have hx2 := c2.lt
    have hlt1 := g1.lt
    have hlt2 := g2.lt
    simp only [TwinJob.need] at hlt1 hlt2
    obtain ⟨t1, e1, a1, a2, a3⟩ := string_twin hl1 c1 hs.depth1
    obtain ⟨t2, e2, b1, b2, b3⟩ := string_twin hl2 c2 hs.depth2
    have ht : Pair P h1 h2 t1 t2 :=
      (hs.step (by rw [a1, b1, hs.heap]) a2 b2 a3 b3).move (by omega) (by omega)
    unfold hashLoop
    rw [D.bind_eq e1, D.bind_eq e2]
    dsimp only
    rw [D.bind_eq (charge_apply _ _), D.bind_eq (charge_apply _ _), D.bind_eq (allocVar_apply _ _),
      D.bind_eq (allocVar_apply _ _)]
    dsimp only
    rw [ht.heap]
    refine BothRun.bind (ih1 f1 f2 _ _ (by omega) (by omega) (by exact ht.step rfl rfl rfl rfl rfl) _) ?_
    rintro x y u1 u2 ⟨rfl, rfl, hu⟩
    rw [D.bind_eq (readLoc_apply _ _), D.bind_eq (readLoc_apply _ _), hu.heap]
    exact ih2 f1 f2 _ _ (by omega) (by omega) (by exact hu.step (by dsimp only; rw [hu.heap]) rfl rfl rfl rfl) m

end

theorem Twin.inside {B1 B2 : Bytes} {job : TwinJob} {P P' : List (Nat × Nat)} {i1 i2 j1 j2 : Nat}
    (h : Twin B1 B2 job P i1 i2 j1 j2 P') (hj : job = .item) : i1 ≤ B1.length ∧ i2 ≤ B2.length := by
  have hd : ∀ {B : Bytes} {i : Nat} {b : UInt8}, B[i]? = some b → i ≤ B.length :=
    fun h => Nat.le_of_lt (List.getElem?_eq_some_iff.mp h).1
  cases h with
  | itemsNil => cases hj
  | itemsCons => cases hj
  | pairsNil => cases hj
  | pairsCons => cases hj
  | bare h1 h2 => exact ⟨hd h1, hd h2⟩
  | num h1 h2 => exact ⟨hd h1, hd h2⟩
  | float h1 h2 => exact ⟨hd h1, hd h2⟩
  | double h1 h2 => exact ⟨hd h1, hd h2⟩
  | str h1 h2 => exact ⟨hd h1, hd h2⟩
  | short h1 h2 => exact ⟨hd h1, hd h2⟩
  | array h1 h2 => exact ⟨hd h1, hd h2⟩
  | hash h1 h2 => exact ⟨hd h1, hd h2⟩
  | refn h1 h2 => exact ⟨hd h1, hd h2⟩
  | weaken h1 h2 => exact ⟨hd h1, hd h2⟩
  | refp h1 h2 => exact ⟨hd h1, hd h2⟩
  | regexp h1 h2 => exact ⟨hd h1, hd h2⟩
  | object h1 h2 => exact ⟨hd h1, hd h2⟩
  | freeze h1 h2 => exact ⟨hd h1, hd h2⟩

/-- Unmarshal treats twins alike. -/
theorem twin_unmarshal {cfg : DCfg} {cs1 cs2 : Codecs} {d1 d2 B1 B2 : Bytes} {i1 i2 j1 j2 : Nat} {P : List (Nat × Nat)}
    (h1 : bodyInput cs1 d1 = .ok (B1, i1)) (h2 : bodyInput cs2 d2 = .ok (B2, i2)) (hl1 : B1.length ≤ maxSize)
    (hl2 : B2.length ≤ maxSize) (h : Twin B1 B2 .item [] i1 i2 j1 j2 P) :
    unmarshal cfg cs1 d1 = unmarshal cfg cs2 d2 := by
  have ht : Pair [] i1 i2 { DState.init with tracked := fun _ => none } { DState.init with tracked := fun _ => none } :=
    ⟨rfl, rfl, rfl, by simp, fun _ _ => rfl, fun _ _ => rfl⟩
  have hlt := h.lt
  have hi1 : j1 ≤ i1 + fuelFor B1.length := by
    by_cases hi : i1 ≤ B1.length
    · have := hlt.2.2.1 hi; unfold fuelFor; omega
    · exact absurd (h.inside rfl).1 hi
  have hi2 : j2 ≤ i2 + fuelFor B2.length := by
    by_cases hi : i2 ≤ B2.length
    · have := hlt.2.2.2 hi; unfold fuelFor; omega
    · exact absurd (h.inside rfl).2 hi
  have hr := twin_run (cfg := cfg) hl1 hl2 h _ _ _ _ hi1 hi2 ht (.cell 1)
  unfold unmarshal unmarshalHeaderBody
  rw [unmarshalRaw_body, unmarshalRaw_body, h1, h2]
  dsimp only
  unfold decodeBody withTracked
  cases e1 : decode cfg B1 (fuelFor B1.length) i1 (.cell 1) { DState.init with tracked := fun _ => none } with
  | mk r1 t1 =>
    cases e2 : decode cfg B2 (fuelFor B2.length) i2 (.cell 1) { DState.init with tracked := fun _ => none } with
    | mk r2 t2 =>
      rw [e1, e2] at hr
      cases r1 with
      | error e =>
        cases r2 with
        | error e' =>
          obtain rfl : e = e' := hr
          cases e <;> rfl
        | ok x => exact absurd hr id
      | ok x =>
        cases r2 with
        | error e' => exact absurd hr id
        | ok y =>
          have := hr.2.2.heap
          simp only [recovered, this]

end Sereal
