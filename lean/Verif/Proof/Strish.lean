import Verif.Proof.Tags
/-
decodeStringish, decodeBinary, decodeFloat, decodeDouble against the grammar.
-/
namespace Sereal

/-- Equal up to the ghost counters. -/
structure DState.Eqv (s s' : DState) : Prop where
  heap : s'.heap = s.heap
  tracked : s'.tracked = s.tracked
  copyDepth : s'.copyDepth = s.copyDepth

theorem DState.Eqv.refl (s : DState) : s.Eqv s := ⟨rfl, rfl, rfl⟩
theorem DState.Eqv.trans {s s' s'' : DState} (h : s.Eqv s') (h' : s'.Eqv s'') : s.Eqv s'' :=
  ⟨h'.heap.trans h.heap, h'.tracked.trans h.tracked, h'.copyDepth.trans h.copyDepth⟩

/-- Is the decoder inside a COPY? -/
def DState.cd (s : DState) : Bool := decide (s.copyDepth > 0)

theorem DState.Eqv.cd {s s' : DState} (h : s.Eqv s') : s'.cd = s.cd := by
  unfold DState.cd; rw [h.copyDepth]

theorem decodeBinary_ok {buf : Bytes} {i : Nat} {n : Nat} {t : Bytes} {j : Nat} {s s' : DState}
    (hi : i ≤ buf.length) (hn : n < 2 ^ 64) :
    decodeBinary buf i (sgn n) s = (.ok (t, j), s') ↔
      n ≤ maxSize ∧ Span buf i t j ∧ t.length = n ∧ s' = { s with alloc := s.alloc + n, peak := max s.peak n } := by
  unfold decodeBinary
  by_cases hbig : n ≤ maxSize
  · have hs : sgn n = n := sgn_small (by simp [maxSize] at hbig; omega)
    have h1 : ¬ ((n : Int) < 0 ∨ (n : Int) > maxInt32) := by
      simp only [maxSize, maxInt32] at *; omega
    rw [hs]
    simp only [Int.toNat_natCast]
    constructor
    · intro h
      obtain ⟨_, s1, h2, h⟩ := D.bind_ok.1 h
      obtain ⟨_, rfl⟩ := D.failIf_ok.1 h2
      obtain ⟨_, s1, h3, h⟩ := D.bind_ok.1 h
      obtain ⟨hlen, rfl⟩ := D.failIf_ok.1 h3
      obtain ⟨t', s1, h4, h⟩ := D.bind_ok.1 h
      obtain ⟨h5, h6, rfl, rfl⟩ := sliceRange_ok.1 h4
      simp only [charge_apply, D.bind_apply, D.pure_apply, Prod.mk.injEq, Except.ok.injEq] at h
      obtain ⟨⟨rfl, rfl⟩, rfl⟩ := h
      refine ⟨hbig, (span_iff hi).2 ⟨by omega, by omega, rfl⟩, ?_, rfl⟩
      rw [List.length_take, List.length_drop]; omega
    · rintro ⟨_, hsp, hl, rfl⟩
      obtain ⟨h2, h3, h4⟩ := (span_iff hi).1 hsp
      have hj : j = i + n := by rw [hsp.2, hl]
      subst hj
      rw [D.bind_eq (D.failIf_pass h1), D.bind_eq (D.failIf_pass (by omega)),
        D.bind_eq (sliceRange_ok.2 ⟨by omega, h3, rfl, rfl⟩)]
      simp only [charge_apply, D.bind_apply, D.pure_apply]
      rw [← h4]
  · have h1 : sgn n < 0 ∨ sgn n > maxInt32 := by
      by_cases h63 : n < 2 ^ 63
      · rw [sgn_small h63]; simp only [maxSize, maxInt32] at *; omega
      · exact Or.inl (sgn_big (by omega) hn)
    simp only [hbig, false_and, iff_false]
    intro h
    obtain ⟨_, s1, h2, h⟩ := D.bind_ok.1 h
    exact (D.failIf_ok.1 h2).1 h1

theorem sgn_size {n : Nat} (hn : n < 2 ^ 64) :
    ¬ (sgn n < 0 ∨ sgn n > maxInt32) ↔ n ≤ maxSize := by
  by_cases h63 : n < 2 ^ 63
  · rw [sgn_small h63]; simp only [maxSize, maxInt32]; omega
  · have := sgn_big (by omega) hn
    simp only [maxSize, maxInt32]; omega

theorem sgn_lt {n i : Nat} (hn : n < 2 ^ 64) (hi : i ≤ 2 ^ 63) :
    ¬ (sgn n < 0 ∨ sgn n ≥ i) ↔ n < i := by
  by_cases h63 : n < 2 ^ 63
  · rw [sgn_small h63]; omega
  · have := sgn_big (by omega) hn
    omega

theorem lt_of_sgn {n i : Nat} (hn : n < 2 ^ 64) (h : ¬ (sgn n < 0 ∨ sgn n ≥ i)) :
    n < i ∧ sgn n = n := by
  by_cases h63 : n < 2 ^ 63
  · rw [sgn_small h63] at h; exact ⟨by omega, sgn_small h63⟩
  · have := sgn_big (by omega) hn
    omega

theorem sgn_nonneg {n : Nat} (hn : n < 2 ^ 64) : ¬ sgn n < 0 ↔ n < 2 ^ 63 := by
  by_cases h63 : n < 2 ^ 63
  · rw [sgn_small h63]; omega
  · have := sgn_big (by omega) hn
    omega

/-- Strip the track flag from a tag and classify it. -/
theorem stringish_tags (b : UInt8) :
    ((b &&& ~~~ trackFlag = typeBINARY ∨ b &&& ~~~ trackFlag = typeSTR_UTF8) ↔
      (classify (b.toNat % 128) = .binary ∨ classify (b.toNat % 128) = .strUtf8)) ∧
    ((typeSHORT_BINARY_0 ≤ b &&& ~~~ trackFlag ∧ b &&& ~~~ trackFlag < typeSHORT_BINARY_0 + 32) ↔
      classify (b.toNat % 128) = .short ((b &&& ~~~ trackFlag) &&& 0x1f).toNat) ∧
    (b &&& ~~~ trackFlag = typeCOPY ↔ classify (b.toNat % 128) = .copy) := by
  revert b; apply u8_forall; set_option maxRecDepth 8000 in decide

/-- The length of a short string tag. -/
def TagC.shortLen? : TagC → Option Nat
  | .short n => some n
  | _ => none

theorem classify_short {b : UInt8} {n : Nat} (h : classify (b.toNat % 128) = .short n) :
    (typeSHORT_BINARY_0 ≤ b &&& ~~~ trackFlag ∧ b &&& ~~~ trackFlag < typeSHORT_BINARY_0 + 32) ∧
      n < 32 := by
  have key : ∀ b : UInt8, (classify (b.toNat % 128)).shortLen? = none ∨
      ((typeSHORT_BINARY_0 ≤ b &&& ~~~ trackFlag ∧
        b &&& ~~~ trackFlag < typeSHORT_BINARY_0 + 32) ∧
      (classify (b.toNat % 128)).shortLen? = some (b.toNat % 128 - 96)) := by
    apply u8_forall; set_option maxRecDepth 8000 in decide
  rcases key b with h1 | ⟨h1, h2⟩
  · rw [h] at h1; cases h1
  · rw [h] at h2; simp [TagC.shortLen?] at h2; exact ⟨h1, by omega⟩

theorem tagClasses (b : UInt8) :
    (classify (b.toNat % 128) = .binary ∨ classify (b.toNat % 128) = .strUtf8) →
      classify (b.toNat % 128) ≠ .copy ∧ ∀ n, classify (b.toNat % 128) ≠ .short n := by
  rintro (h | h) <;> rw [h] <;> simp

/-- A literal is decoded at the first level of decodeStringish. -/
theorem decodeStringishF_lit {buf : Bytes} {f i : Nat} {t : Bytes} {j : Nat} {s : DState}
    (h : Lit goDialect buf i t j) :
    decodeStringishF buf (f + 1) i s = (.ok (t, j), { s with steps := s.steps + 1 }) := by
  rw [decodeStringishF, D.bind_eq (tick_apply s)]
  cases h with
  | @long k b n j1 _ _ htag hc hv hn hsp hl =>
    obtain ⟨c1, c2, c3⟩ := stringish_tags b
    rw [D.bind_eq (D.lift_ok.2 ⟨skipPad_ok.2 htag, rfl⟩)]
    dsimp only
    rw [if_pos (c1.2 hc)]
    have hn64 : n < 2 ^ 64 := by simp only [maxSize] at hn; omega
    have hj1 : k + 1 + (j1 - (k + 1)) = j1 := by have := hv.lt; omega
    rw [D.bind_eq (varintAt_ok_iff.2 ⟨rfl, n, by rw [hj1]; exact hv, rfl, hn64⟩)]
    dsimp only
    have hs : sgn n = n := sgn_small (by simp [maxSize] at hn; omega)
    rw [D.bind_eq (D.failIf_pass ((sgn_size hn64).2 hn))]
    have hjl := hsp.le_length hv.le_length
    have hj : j = j1 + n := by rw [hsp.2, hl]
    simp only [hs, Int.toNat_natCast, hj1]
    rw [D.bind_eq (D.failIf_pass (by omega)),
      D.bind_eq (sliceRange_ok.2 ⟨by omega, by omega, rfl, rfl⟩)]
    have := (span_iff hv.le_length).1 hsp
    rw [D.pure_apply, this.2.2, hj]
  | @short k b n _ _ htag hc hsp hl =>
    obtain ⟨c1, c2, c3⟩ := stringish_tags b
    have hk := htag.lt
    rw [D.bind_eq (D.lift_ok.2 ⟨skipPad_ok.2 htag, rfl⟩)]
    dsimp only
    have hn1 : ¬ (classify (b.toNat % 128) = .binary ∨ classify (b.toNat % 128) = .strUtf8) := by
      rw [hc]; simp
    have hn2 : typeSHORT_BINARY_0 ≤ b &&& ~~~ trackFlag ∧
        b &&& ~~~ trackFlag < typeSHORT_BINARY_0 + 32 ∧ n = ((b &&& ~~~ trackFlag) &&& 0x1f).toNat := by
      obtain ⟨h1, h2⟩ := classify_short hc
      refine ⟨h1.1, h1.2, ?_⟩
      rw [c2.1 h1] at hc
      simpa using hc.symm
    rw [if_neg (mt c1.1 hn1), if_pos ⟨hn2.1, hn2.2.1⟩]
    rw [← hn2.2.2]
    have hj : j = k + 1 + n := by rw [hsp.2, hl]
    have hjl := hsp.le_length (by omega)
    rw [D.bind_eq (D.failIf_pass (by omega)),
      D.bind_eq (sliceRange_ok.2 ⟨by omega, by omega, rfl, rfl⟩)]
    have := (span_iff (by omega)).1 hsp
    rw [D.pure_apply, this.2.2, hj]

theorem withCopy_ok {x : D α} {a : α} {s s' : DState} :
    withCopy x s = (.ok a, s') ↔
      ∃ s1, x { s with copyDepth := s.copyDepth + 1 } = (.ok a, s1) ∧
        s' = { s1 with copyDepth := s1.copyDepth - 1 } := by
  unfold withCopy
  constructor
  · intro h
    split at h
    · rename_i r s3 hr
      simp only [Prod.mk.injEq, Except.ok.injEq] at h
      obtain ⟨rfl, rfl⟩ := h
      exact ⟨s3, hr, rfl⟩
    · cases h
    · cases h
  · rintro ⟨s1, h, rfl⟩
    rw [h]

/-- Everything that can make decodeStringish succeed. -/
theorem decodeStringishF_inv {buf : Bytes} {f i : Nat} {t : Bytes} {j : Nat} {s s' : DState}
    (h : decodeStringishF buf (f + 1) i s = (.ok (t, j), s')) :
    (Lit goDialect buf i t j ∧ s' = { s with steps := s.steps + 1 }) ∨
    (s.copyDepth = 0 ∧ ∃ k b o j' s1, TagAt buf i k b ∧ classify (b.toNat % 128) = .copy ∧
      Vint goDialect buf (k + 1) o j ∧ o ≤ k ∧
      decodeStringishF buf f o { s with steps := s.steps + 1, copyDepth := s.copyDepth + 1 } =
        (.ok (t, j'), s1) ∧
      s' = { s1 with copyDepth := s1.copyDepth - 1 }) := by
  rw [decodeStringishF, D.bind_eq (tick_apply s)] at h
  obtain ⟨⟨k, b⟩, s1, h1, h⟩ := D.bind_ok.1 h
  obtain ⟨hsk, rfl⟩ := D.lift_ok.1 h1
  have htag := skipPad_ok.1 hsk
  have hk := htag.lt
  obtain ⟨c1, c2, c3⟩ := stringish_tags b
  dsimp only at h
  by_cases hc1 : b &&& ~~~ trackFlag = typeBINARY ∨ b &&& ~~~ trackFlag = typeSTR_UTF8
  · rw [if_pos hc1] at h
    obtain ⟨⟨ln, sz⟩, s2, h2, h⟩ := D.bind_ok.1 h
    obtain ⟨rfl, n, hv, rfl, hn64⟩ := varintAt_ok_iff.1 h2
    dsimp only at h
    obtain ⟨_, s2, h3, h⟩ := D.bind_ok.1 h
    obtain ⟨hsz, rfl⟩ := D.failIf_ok.1 h3
    have hn := (sgn_size hn64).1 hsz
    have hs : sgn n = n := sgn_small (by simp [maxSize] at hn; omega)
    simp only [hs, Int.toNat_natCast] at h
    obtain ⟨_, s2, h4, h⟩ := D.bind_ok.1 h
    obtain ⟨hlen, rfl⟩ := D.failIf_ok.1 h4
    obtain ⟨t', s2, h5, h⟩ := D.bind_ok.1 h
    obtain ⟨h6, h7, rfl, rfl⟩ := sliceRange_ok.1 h5
    rw [D.pure_ok, Prod.mk.injEq] at h
    obtain ⟨⟨rfl, rfl⟩, rfl⟩ := h
    refine Or.inl ⟨.long htag (c1.1 hc1) hv hn ((span_iff hv.le_length).2 ⟨h6, h7, rfl⟩) ?_, rfl⟩
    rw [List.length_take, List.length_drop]; omega
  · rw [if_neg hc1] at h
    by_cases hc2 : typeSHORT_BINARY_0 ≤ b &&& ~~~ trackFlag ∧
        b &&& ~~~ trackFlag < typeSHORT_BINARY_0 + 32
    · rw [if_pos hc2] at h
      obtain ⟨_, s2, h4, h⟩ := D.bind_ok.1 h
      obtain ⟨hlen, rfl⟩ := D.failIf_ok.1 h4
      obtain ⟨t', s2, h5, h⟩ := D.bind_ok.1 h
      obtain ⟨h6, h7, rfl, rfl⟩ := sliceRange_ok.1 h5
      rw [D.pure_ok, Prod.mk.injEq] at h
      obtain ⟨⟨rfl, rfl⟩, rfl⟩ := h
      refine Or.inl ⟨.short htag (c2.1 hc2) ((span_iff (by omega)).2 ⟨h6, h7, rfl⟩) ?_, rfl⟩
      rw [List.length_take, List.length_drop]; omega
    · rw [if_neg hc2] at h
      by_cases hc3 : b &&& ~~~ trackFlag = typeCOPY
      · rw [if_pos hc3, D.bind_eq (D.get_apply _)] at h
        obtain ⟨_, s2, h2, h⟩ := D.bind_ok.1 h
        obtain ⟨hcd, rfl⟩ := D.failIf_ok.1 h2
        obtain ⟨⟨offs, sz⟩, s2, h2, h⟩ := D.bind_ok.1 h
        obtain ⟨rfl, n, hv, rfl, hn64⟩ := varintAt_ok_iff.1 h2
        dsimp only at h
        obtain ⟨_, s2, h3, h⟩ := D.bind_ok.1 h
        obtain ⟨hsz, rfl⟩ := D.failIf_ok.1 h3
        obtain ⟨hlt, hs⟩ := lt_of_sgn hn64 hsz
        simp only [hs, Int.toNat_natCast] at h
        obtain ⟨⟨t', j'⟩, s2, h4, h⟩ := D.bind_ok.1 h
        rw [D.pure_ok, Prod.mk.injEq] at h
        obtain ⟨⟨rfl, rfl⟩, rfl⟩ := h
        obtain ⟨s3, hr, rfl⟩ := withCopy_ok.1 h4
        exact Or.inr ⟨by simpa using hcd, k, b, n, j', s3, htag, c3.1 hc3, hv, by omega, hr, rfl⟩
      · rw [if_neg hc3, D.err_ok] at h
        exact h.elim

theorem decodeStringish_ok {buf : Bytes} {i : Nat} {t : Bytes} {j : Nat} {s s' : DState}
    (h : decodeStringish buf i s = (.ok (t, j), s')) :
    Strish goDialect buf s.cd i t j ∧ s.Eqv s' ∧ s'.alloc = s.alloc ∧ s'.steps ≤ s.steps + 2 := by
  rcases decodeStringishF_inv h with ⟨hl, rfl⟩ | ⟨hcd, k, b, o, j', s1, htag, hc, hv, ho, hr, rfl⟩
  · exact ⟨.lit hl, ⟨rfl, rfl, rfl⟩, rfl, by simp⟩
  · rcases decodeStringishF_inv hr with ⟨hl, rfl⟩ | ⟨hcd', _⟩
    · refine ⟨.copy (Or.inl ?_) htag hc hv ho hl (fun h => by cases h), ⟨rfl, rfl, rfl⟩, rfl, by simp⟩
      simp [DState.cd, hcd]
    · simp at hcd'

theorem decodeStringish_of {buf : Bytes} {i : Nat} {t : Bytes} {j : Nat} {s : DState}
    (hlen : buf.length ≤ 2 ^ 63) (h : Strish goDialect buf s.cd i t j) :
    ∃ s', decodeStringish buf i s = (.ok (t, j), s') := by
  cases h with
  | lit h => exact ⟨_, decodeStringishF_lit h⟩
  | @copy k b o j s1 j' hcd htag hc hv ho hl =>
    have hcd : ¬ s.copyDepth > 0 := by
      rcases hcd with h | h
      · simpa [DState.cd] using h
      · simp [goDialect] at h
    have hk := htag.lt
    obtain ⟨c1, c2, c3⟩ := stringish_tags b
    have hn1 : ¬ (classify (b.toNat % 128) = .binary ∨ classify (b.toNat % 128) = .strUtf8) := by
      rw [hc]; simp
    have hn2 : ¬ (classify (b.toNat % 128) = .short ((b &&& ~~~ trackFlag) &&& 0x1f).toNat) := by
      rw [hc]; simp
    unfold decodeStringish
    rw [decodeStringishF, D.bind_eq (tick_apply s),
      D.bind_eq (D.lift_ok.2 ⟨skipPad_ok.2 htag, rfl⟩)]
    dsimp only
    rw [if_neg (mt c1.1 hn1), if_neg (mt c2.1 hn2), if_pos (c3.2 hc), D.bind_eq (D.get_apply _),
      D.bind_eq (D.failIf_pass hcd)]
    have hj1 : k + 1 + (j - (k + 1)) = j := by have := hv.lt; omega
    have ho63 : o < 2 ^ 63 := by omega
    rw [D.bind_eq (varintAt_ok_iff.2 ⟨rfl, o, by rw [hj1]; exact hv, rfl, by omega⟩)]
    dsimp only
    rw [D.bind_eq (D.failIf_pass ((sgn_lt (by omega) (by omega)).2 (by omega))), sgn_small ho63,
      Int.toNat_natCast, D.bind_eq (withCopy_ok.2 ⟨_, decodeStringishF_lit hl, rfl⟩)]
    exact ⟨_, by rw [D.pure_apply, hj1]⟩

end Sereal
