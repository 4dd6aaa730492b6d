import Verif.Proof.Complete
import Verif.Proof.Shared
/-
Two buffers that hold the same item, except that a key or class name may be spelled out in one and be a
COPY in the other, and that the offsets of REFP items differ accordingly.  The decoder treats them alike:
same heap, same value, same error.
-/
namespace Sereal

/-- What stands at a pair of positions. -/
inductive TwinJob
  | item
  | items (n : Nat)
  | pairs (n : Nat)

/-- Tags of items that consist of the tag only. -/
def TagC.bare : TagC → Bool
  | .int _ | .true_ | .false_ | .undef | .cundef => true
  | _ => false

/-- `Twin B1 B2 job P i1 i2 j1 j2 P'`: the same `job` stands at `i1` in `B1` and at `i2` in `B2`, ending
before `j1` and `j2`; `P` and `P'` are the pairs of positions of corresponding items seen before and after.
Corresponding items have the same tag byte, track bit included. -/
inductive Twin (B1 B2 : Bytes) : TwinJob → List (Nat × Nat) → Nat → Nat → Nat → Nat → List (Nat × Nat) → Prop
  | bare {P i1 i2 b} : B1[i1]? = some b → B2[i2]? = some b → (classify (b.toNat % 128)).bare = true →
      Twin B1 B2 .item P i1 i2 (i1 + 1) (i2 + 1) ((i1, i2) :: P)
  | num {P i1 i2 b n j1 j2} : B1[i1]? = some b → B2[i2]? = some b →
      (classify (b.toNat % 128) = .varint ∨ classify (b.toNat % 128) = .zigzag) →
      Vint wrtDialect B1 (i1 + 1) n j1 → Vint wrtDialect B2 (i2 + 1) n j2 →
      Twin B1 B2 .item P i1 i2 j1 j2 ((i1, i2) :: P)
  | float {P i1 i2 b s j1 j2} : B1[i1]? = some b → B2[i2]? = some b → classify (b.toNat % 128) = .float →
      Span B1 (i1 + 1) s j1 → Span B2 (i2 + 1) s j2 → s.length = 4 →
      Twin B1 B2 .item P i1 i2 j1 j2 ((i1, i2) :: P)
  | double {P i1 i2 b s j1 j2} : B1[i1]? = some b → B2[i2]? = some b → classify (b.toNat % 128) = .double →
      Span B1 (i1 + 1) s j1 → Span B2 (i2 + 1) s j2 → s.length = 8 →
      Twin B1 B2 .item P i1 i2 j1 j2 ((i1, i2) :: P)
  | str {P i1 i2 b s k1 k2 j1 j2} : B1[i1]? = some b → B2[i2]? = some b →
      (classify (b.toNat % 128) = .binary ∨ classify (b.toNat % 128) = .strUtf8) →
      Vint wrtDialect B1 (i1 + 1) s.length k1 → Vint wrtDialect B2 (i2 + 1) s.length k2 →
      Span B1 k1 s j1 → Span B2 k2 s j2 → Twin B1 B2 .item P i1 i2 j1 j2 ((i1, i2) :: P)
  | short {P i1 i2 b s j1 j2} : B1[i1]? = some b → B2[i2]? = some b →
      classify (b.toNat % 128) = .short s.length → Span B1 (i1 + 1) s j1 → Span B2 (i2 + 1) s j2 →
      Twin B1 B2 .item P i1 i2 j1 j2 ((i1, i2) :: P)
  | array {P i1 i2 b n k1 k2 j1 j2 P'} : B1[i1]? = some b → B2[i2]? = some b →
      classify (b.toNat % 128) = .array → Vint wrtDialect B1 (i1 + 1) n k1 → Vint wrtDialect B2 (i2 + 1) n k2 →
      Twin B1 B2 (.items n) ((i1, i2) :: P) k1 k2 j1 j2 P' → Twin B1 B2 .item P i1 i2 j1 j2 P'
  | hash {P i1 i2 b n k1 k2 j1 j2 P'} : B1[i1]? = some b → B2[i2]? = some b →
      classify (b.toNat % 128) = .hash → Vint wrtDialect B1 (i1 + 1) n k1 → Vint wrtDialect B2 (i2 + 1) n k2 →
      Twin B1 B2 (.pairs n) ((i1, i2) :: P) k1 k2 j1 j2 P' → Twin B1 B2 .item P i1 i2 j1 j2 P'
  | refn {P i1 i2 b j1 j2 P'} : B1[i1]? = some b → B2[i2]? = some b → classify (b.toNat % 128) = .refn →
      Twin B1 B2 .item ((i1, i2) :: P) (i1 + 1) (i2 + 1) j1 j2 P' → Twin B1 B2 .item P i1 i2 j1 j2 P'
  | weaken {P i1 i2 b j1 j2 P'} : B1[i1]? = some b → B2[i2]? = some b → classify (b.toNat % 128) = .weaken →
      Twin B1 B2 .item ((i1, i2) :: P) (i1 + 1) (i2 + 1) j1 j2 P' → Twin B1 B2 .item P i1 i2 j1 j2 P'
  | refp {P i1 i2 b o1 o2 j1 j2} : B1[i1]? = some b → B2[i2]? = some b → classify (b.toNat % 128) = .refp →
      Vint wrtDialect B1 (i1 + 1) o1 j1 → Vint wrtDialect B2 (i2 + 1) o2 j2 → (o1, o2) ∈ P →
      Twin B1 B2 .item P i1 i2 j1 j2 ((i1, i2) :: P)
  | regexp {P i1 i2 b p m k1 k2 j1 j2} : B1[i1]? = some b → B2[i2]? = some b →
      classify (b.toNat % 128) = .regexp →
      Strish wrtDialect B1 false (i1 + 1) p k1 → Strish wrtDialect B2 false (i2 + 1) p k2 →
      Strish wrtDialect B1 false k1 m j1 → Strish wrtDialect B2 false k2 m j2 →
      Twin B1 B2 .item P i1 i2 j1 j2 ((i1, i2) :: P)
  | object {P i1 i2 b cls k1 k2 j1 j2 P'} : B1[i1]? = some b → B2[i2]? = some b →
      classify (b.toNat % 128) = .object →
      Strish wrtDialect B1 false (i1 + 1) cls k1 → Strish wrtDialect B2 false (i2 + 1) cls k2 →
      Twin B1 B2 .item ((i1, i2) :: P) k1 k2 j1 j2 P' → Twin B1 B2 .item P i1 i2 j1 j2 P'
  | freeze {P i1 i2 b cls k1 k2 j1 j2 P'} : B1[i1]? = some b → B2[i2]? = some b →
      classify (b.toNat % 128) = .freeze →
      Strish wrtDialect B1 false (i1 + 1) cls k1 → Strish wrtDialect B2 false (i2 + 1) cls k2 →
      Span B1 k1 [0x28, 0x2b] (k1 + 2) → Span B2 k2 [0x28, 0x2b] (k2 + 2) →
      Twin B1 B2 .item ((i1, i2) :: P) k1 k2 j1 j2 P' → Twin B1 B2 .item P i1 i2 j1 j2 P'
  | itemsNil {P i1 i2} : Twin B1 B2 (.items 0) P i1 i2 i1 i2 P
  | itemsCons {P i1 i2 k1 k2 P1 n j1 j2 P'} : Twin B1 B2 .item P i1 i2 k1 k2 P1 →
      Twin B1 B2 (.items n) P1 k1 k2 j1 j2 P' → Twin B1 B2 (.items (n + 1)) P i1 i2 j1 j2 P'
  | pairsNil {P i1 i2} : Twin B1 B2 (.pairs 0) P i1 i2 i1 i2 P
  | pairsCons {P i1 i2 key h1 h2 k1 k2 P1 n j1 j2 P'} :
      Strish wrtDialect B1 false i1 key h1 → Strish wrtDialect B2 false i2 key h2 →
      Twin B1 B2 .item P h1 h2 k1 k2 P1 →
      Twin B1 B2 (.pairs n) P1 k1 k2 j1 j2 P' → Twin B1 B2 (.pairs (n + 1)) P i1 i2 j1 j2 P'

/-- How many bytes a job takes at least. -/
def TwinJob.need : TwinJob → Nat
  | .item => 1
  | .items n => n
  | .pairs n => 2 * n

section
variable {B1 B2 : Bytes}

theorem Twin.lt {job : TwinJob} {P P' : List (Nat × Nat)} {i1 i2 j1 j2 : Nat}
    (h : Twin B1 B2 job P i1 i2 j1 j2 P') :
    i1 + job.need ≤ j1 ∧ i2 + job.need ≤ j2 ∧ (i1 ≤ B1.length → j1 ≤ B1.length) ∧
      (i2 ≤ B2.length → j2 ≤ B2.length) := by
  have hd : ∀ {B : Bytes} {i : Nat} {b : UInt8}, B[i]? = some b → i + 1 ≤ B.length :=
    fun h => (List.getElem?_eq_some_iff.mp h).1
  induction h with
  | bare h1 h2 => exact ⟨Nat.le_refl _, Nat.le_refl _, fun _ => hd h1, fun _ => hd h2⟩
  | num h1 h2 _ v1 v2 =>
    have := v1.lt; have := v2.lt
    exact ⟨by simp only [TwinJob.need]; omega, by simp only [TwinJob.need]; omega, fun _ => v1.le_length,
      fun _ => v2.le_length⟩
  | float h1 h2 _ s1 s2 =>
    have := s1.2; have := s2.2; have := hd h1; have := hd h2
    exact ⟨by simp only [TwinJob.need]; omega, by simp only [TwinJob.need]; omega,
      fun _ => s1.le_length (by omega), fun _ => s2.le_length (by omega)⟩
  | double h1 h2 _ s1 s2 =>
    have := s1.2; have := s2.2; have := hd h1; have := hd h2
    exact ⟨by simp only [TwinJob.need]; omega, by simp only [TwinJob.need]; omega,
      fun _ => s1.le_length (by omega), fun _ => s2.le_length (by omega)⟩
  | str h1 h2 _ v1 v2 s1 s2 =>
    have := s1.2; have := s2.2; have := v1.lt; have := v2.lt
    exact ⟨by simp only [TwinJob.need]; omega, by simp only [TwinJob.need]; omega,
      fun _ => s1.le_length v1.le_length, fun _ => s2.le_length v2.le_length⟩
  | short h1 h2 _ s1 s2 =>
    have := s1.2; have := s2.2; have := hd h1; have := hd h2
    exact ⟨by simp only [TwinJob.need]; omega, by simp only [TwinJob.need]; omega,
      fun _ => s1.le_length (by omega), fun _ => s2.le_length (by omega)⟩
  | array h1 h2 _ v1 v2 _ ih =>
    have := v1.lt; have := v2.lt
    simp only [TwinJob.need] at *
    exact ⟨by omega, by omega, fun _ => ih.2.2.1 v1.le_length, fun _ => ih.2.2.2 v2.le_length⟩
  | hash h1 h2 _ v1 v2 _ ih =>
    have := v1.lt; have := v2.lt
    simp only [TwinJob.need] at *
    exact ⟨by omega, by omega, fun _ => ih.2.2.1 v1.le_length, fun _ => ih.2.2.2 v2.le_length⟩
  | refn h1 h2 _ _ ih =>
    simp only [TwinJob.need] at *
    exact ⟨by omega, by omega, fun _ => ih.2.2.1 (hd h1), fun _ => ih.2.2.2 (hd h2)⟩
  | weaken h1 h2 _ _ ih =>
    simp only [TwinJob.need] at *
    exact ⟨by omega, by omega, fun _ => ih.2.2.1 (hd h1), fun _ => ih.2.2.2 (hd h2)⟩
  | refp h1 h2 _ v1 v2 =>
    have := v1.lt; have := v2.lt
    exact ⟨by simp only [TwinJob.need]; omega, by simp only [TwinJob.need]; omega, fun _ => v1.le_length,
      fun _ => v2.le_length⟩
  | regexp h1 h2 _ p1 p2 m1 m2 =>
    have := p1.lt; have := p2.lt; have := m1.lt; have := m2.lt
    exact ⟨by simp only [TwinJob.need]; omega, by simp only [TwinJob.need]; omega, fun _ => m1.lt.2,
      fun _ => m2.lt.2⟩
  | object h1 h2 _ c1 c2 _ ih =>
    have := c1.lt; have := c2.lt
    simp only [TwinJob.need] at *
    exact ⟨by omega, by omega, fun _ => ih.2.2.1 c1.lt.2, fun _ => ih.2.2.2 c2.lt.2⟩
  | freeze h1 h2 _ c1 c2 _ _ _ ih =>
    have := c1.lt; have := c2.lt
    simp only [TwinJob.need] at *
    exact ⟨by omega, by omega, fun _ => ih.2.2.1 c1.lt.2, fun _ => ih.2.2.2 c2.lt.2⟩
  | itemsNil => exact ⟨by simp [TwinJob.need], by simp [TwinJob.need], id, id⟩
  | itemsCons _ _ ih1 ih2 =>
    simp only [TwinJob.need] at *
    exact ⟨by omega, by omega, fun h => ih2.2.2.1 (ih1.2.2.1 h), fun h => ih2.2.2.2 (ih1.2.2.2 h)⟩
  | pairsNil => exact ⟨by simp [TwinJob.need], by simp [TwinJob.need], id, id⟩
  | pairsCons k1 k2 _ _ ih1 ih2 =>
    have := k1.lt; have := k2.lt
    simp only [TwinJob.need] at *
    exact ⟨by omega, by omega, fun h => ih2.2.2.1 (ih1.2.2.1 k1.lt.2), fun h => ih2.2.2.2 (ih1.2.2.2 k2.lt.2)⟩

/-! ### Runs that agree -/

/-- Both runs succeed and are related by `R`, or both fail with the same error. -/
def BothRun (R : α → α → DState → DState → Prop) (r1 r2 : Except Exn α × DState) : Prop :=
  match r1, r2 with
  | (.ok a, s1), (.ok b, s2) => R a b s1 s2
  | (.error e, _), (.error e', _) => e = e'
  | _, _ => False

theorem BothRun.bind {R : α → α → DState → DState → Prop} {R' : β → β → DState → DState → Prop} {x1 x2 : D α}
    {f1 f2 : α → D β} {s1 s2 : DState} (h : BothRun R (x1 s1) (x2 s2))
    (hf : ∀ a b s1' s2', R a b s1' s2' → BothRun R' (f1 a s1') (f2 b s2')) :
    BothRun R' ((x1 >>= f1) s1) ((x2 >>= f2) s2) := by
  show BothRun R' (D.bind x1 f1 s1) (D.bind x2 f2 s2)
  unfold D.bind
  cases h1 : x1 s1 with
  | mk r1 t1 =>
    cases h2 : x2 s2 with
    | mk r2 t2 =>
      rw [h1, h2] at h
      cases r1 with
      | ok a =>
        cases r2 with
        | ok b => exact hf a b t1 t2 h
        | error e => exact absurd h id
      | error e =>
        cases r2 with
        | ok b => exact absurd h id
        | error e' => exact h

/-- Corresponding states of the decoder between two items. -/
structure Pair (P : List (Nat × Nat)) (i1 i2 : Nat) (s1 s2 : DState) : Prop where
  heap : s1.heap = s2.heap
  depth1 : s1.copyDepth = 0
  depth2 : s2.copyDepth = 0
  seen : ∀ o1 o2, (o1, o2) ∈ P → o1 < i1 ∧ o2 < i2 ∧ s1.tracked o1 = s2.tracked o2
  fresh1 : ∀ o, i1 ≤ o → s1.tracked o = none
  fresh2 : ∀ o, i2 ≤ o → s2.tracked o = none

theorem Pair.step {P : List (Nat × Nat)} {i1 i2 : Nat} {s1 s2 t1 t2 : DState} (h : Pair P i1 i2 s1 s2)
    (hh : t1.heap = t2.heap) (h1 : t1.tracked = s1.tracked) (h2 : t2.tracked = s2.tracked)
    (h3 : t1.copyDepth = s1.copyDepth) (h4 : t2.copyDepth = s2.copyDepth) : Pair P i1 i2 t1 t2 :=
  ⟨hh, h3.trans h.depth1, h4.trans h.depth2, by rw [h1, h2]; exact h.seen, by rw [h1]; exact h.fresh1,
    by rw [h2]; exact h.fresh2⟩

theorem Pair.move {P : List (Nat × Nat)} {i1 i2 j1 j2 : Nat} {s1 s2 : DState} (h : Pair P i1 i2 s1 s2)
    (h1 : i1 ≤ j1) (h2 : i2 ≤ j2) : Pair P j1 j2 s1 s2 :=
  ⟨h.heap, h.depth1, h.depth2, fun o1 o2 ho => by obtain ⟨a, b, c⟩ := h.seen o1 o2 ho; exact ⟨by omega, by omega, c⟩,
    fun o ho => h.fresh1 o (by omega), fun o ho => h.fresh2 o (by omega)⟩

/-- The runs reach corresponding positions. -/
abbrev Meet (P : List (Nat × Nat)) (j1 j2 : Nat) : Nat → Nat → DState → DState → Prop :=
  fun x y s1 s2 => x = j1 ∧ y = j2 ∧ Pair P j1 j2 s1 s2

/-- What the decoder does with corresponding jobs. -/
def TwinRun (cfg : DCfg) (B1 B2 : Bytes) (job : TwinJob) (P : List (Nat × Nat)) (i1 i2 j1 j2 : Nat)
    (P' : List (Nat × Nat)) : Prop :=
  ∀ f1 f2 s1 s2, j1 ≤ i1 + f1 → j2 ≤ i2 + f2 → Pair P i1 i2 s1 s2 →
    match job with
    | .item => ∀ loc, BothRun (Meet P' j1 j2) (decode cfg B1 f1 i1 loc s1) (decode cfg B2 f2 i2 loc s2)
    | .items n => ∀ a, BothRun (Meet P' j1 j2) (arrayLoop (decode cfg B1 f1) n a i1 s1)
        (arrayLoop (decode cfg B2 f2) n a i2 s2)
    | .pairs n => ∀ m, BothRun (Meet P' j1 j2) (hashLoop B1 (decode cfg B1 f1) m n i1 s1)
        (hashLoop B2 (decode cfg B2 f2) m n i2 s2)

/-- From the tag byte to what follows it. -/
theorem twin_head {cfg : DCfg} {P P' : List (Nat × Nat)} {i1 i2 j1 j2 : Nat} {b : UInt8} (h1 : B1[i1]? = some b)
    (h2 : B2[i2]? = some b) (hp : classify (b.toNat % 128) ≠ .pad)
    (hr : ∀ f1 f2 s1 s2 loc, j1 ≤ i1 + 1 + f1 → j2 ≤ i2 + 1 + f2 → Pair ((i1, i2) :: P) (i1 + 1) (i2 + 1) s1 s2 →
      BothRun (Meet P' j1 j2)
        (decodeC cfg B1 (decode cfg B1 f1) (classify (b.toNat % 128)) (128 ≤ b.toNat) (i1 + 1) loc (b.toNat % 128) s1)
        (decodeC cfg B2 (decode cfg B2 f2) (classify (b.toNat % 128)) (128 ≤ b.toNat) (i2 + 1) loc (b.toNat % 128) s2))
    (hj1 : i1 < j1) (hj2 : i2 < j2) :
    TwinRun cfg B1 B2 .item P i1 i2 j1 j2 P' := by
  intro f1 f2 s1 s2 hf1 hf2 hs loc
  obtain ⟨f1, rfl⟩ : ∃ f, f1 = f + 1 := ⟨f1 - 1, by omega⟩
  obtain ⟨f2, rfl⟩ : ∃ f, f2 = f + 1 := ⟨f2 - 1, by omega⟩
  have hb : b.toNat % 128 ≠ 0x3f := by
    intro h; rw [h] at hp; exact hp (by decide)
  have tag : ∀ {B : Bytes} {i : Nat}, B[i]? = some b → TagAt B i i b :=
    fun h => ⟨Nat.le_refl _, fun x h1 h2 => by omega, h, hb⟩
  rw [decode_succ, D.bind_eq (tick_apply s1), D.bind_eq (D.lift_ok.2 ⟨skipPad_ok.2 (tag h1), rfl⟩),
    decode_succ, D.bind_eq (tick_apply s2), D.bind_eq (D.lift_ok.2 ⟨skipPad_ok.2 (tag h2), rfl⟩)]
  dsimp only
  by_cases ht : 128 ≤ b.toNat
  · rw [if_pos ht, if_pos ht, D.bind_eq (track_apply _ _ _), D.bind_eq (track_apply _ _ _)]
    refine hr _ _ _ _ loc (by omega) (by omega) ⟨hs.heap, hs.depth1, hs.depth2, ?_, ?_, ?_⟩
    · intro o1 o2 ho
      dsimp only
      rcases List.mem_cons.1 ho with h | h
      · cases h
        exact ⟨by omega, by omega, by rw [if_pos rfl, if_pos rfl]⟩
      · obtain ⟨x, y, z⟩ := hs.seen o1 o2 h
        refine ⟨by omega, by omega, ?_⟩
        rw [if_neg (by omega), if_neg (by omega)]; exact z
    · intro o ho
      dsimp only
      rw [if_neg (by omega)]; exact hs.fresh1 o (by omega)
    · intro o ho
      dsimp only
      rw [if_neg (by omega)]; exact hs.fresh2 o (by omega)
  · rw [if_neg ht, if_neg ht]
    refine hr _ _ _ _ loc (by omega) (by omega) ⟨hs.heap, hs.depth1, hs.depth2, ?_, ?_, ?_⟩
    · intro o1 o2 ho
      dsimp only
      rcases List.mem_cons.1 ho with h | h
      · cases h
        exact ⟨by omega, by omega, by rw [hs.fresh1 _ (Nat.le_refl _), hs.fresh2 _ (Nat.le_refl _)]⟩
      · obtain ⟨x, y, z⟩ := hs.seen o1 o2 h
        exact ⟨by omega, by omega, z⟩
    · intro o ho
      exact hs.fresh1 o (by omega)
    · intro o ho
      exact hs.fresh2 o (by omega)

theorem varint_twin {B : Bytes} {i n j : Nat} (hv : Vint wrtDialect B i n j) (s : DState) :
    varintAt B i s = (.ok (sgn n, j - i), s) ∧ n < 2 ^ 64 ∧ i + (j - i) = j :=
  varintAt_of (hv.up wrtDialect_le_go) s

theorem string_twin {B : Bytes} (hlen : B.length ≤ maxSize) {i j : Nat} {k : Bytes}
    (hk : Strish wrtDialect B false i k j) {s : DState} (hcd : s.copyDepth = 0) :
    ∃ s', decodeStringish B i s = (.ok (k, j), s') ∧ s'.heap = s.heap ∧ s'.tracked = s.tracked ∧
      s'.copyDepth = s.copyDepth := by
  obtain ⟨s', h⟩ := decodeStringish_of (s := s) (by simp only [maxSize] at hlen; omega)
    (show Strish goDialect B s.cd i k j by
      rw [show s.cd = false by simp [DState.cd, hcd]]; exact hk.up wrtDialect_le_go)
  have e := (decodeStringish_ok h).2.1
  exact ⟨s', h, e.heap, e.tracked, e.copyDepth⟩

end
end Sereal
