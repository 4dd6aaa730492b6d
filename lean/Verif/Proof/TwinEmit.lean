import Verif.Proof.Twin
import Verif.Proof.EmitToks
/-
Two runs of the encoder on the same value, with the same map iteration order, write twins.
-/
namespace Sereal

/-- The settings that two encoders must share: all but version, compression and deduplication. -/
structure ECfg.Akin (c1 c2 : ECfg) : Prop where
  perlCompat : c1.perlCompat = c2.perlCompat
  disableFreeze : c1.disableFreeze = c2.disableFreeze
  maxRecursionDepth : c1.maxRecursionDepth = c2.maxRecursionDepth
  ord : c1.ord = c2.ord
  dataPtr : c1.dataPtr = c2.dataPtr
  parseFloat : c1.parseFloat = c2.parseFloat

/-- One encoder state: `X` are the positions of the items written so far. -/
structure Side (base : Nat) (X : Nat → Prop) (s : EState) : Prop where
  base_le : base ≤ s.buf.length
  heads : ∀ o, X o → base ≤ o ∧ o < s.buf.length
  strs : ∀ k o, s.strTable k = some o → ∃ w, (w = strItem k ∨ w = binItem k) ∧ base ≤ o ∧
    Span s.buf o w (o + w.length) ∧ ∀ x, o ≤ x → x < o + w.length → ¬ X x

/-- The first and second components of the pairs in `P`. -/
def Lefts (P : List (Nat × Nat)) (o : Nat) : Prop := ∃ o', (o, o') ∈ P
def Rights (P : List (Nat × Nat)) (o : Nat) : Prop := ∃ o', (o', o) ∈ P

/-- Corresponding encoder states. -/
structure EPair (base1 base2 : Nat) (P : List (Nat × Nat)) (s1 s2 : EState) : Prop where
  side1 : Side base1 (Lefts P) s1
  side2 : Side base2 (Rights P) s2
  visits : s1.visits = s2.visits
  ptrs : ∀ a, (s1.ptrTable a = none ∧ s2.ptrTable a = none) ∨
    ∃ o1 o2, s1.ptrTable a = some o1 ∧ s2.ptrTable a = some o2 ∧ (o1, o2) ∈ P
  same : ∀ o1 o2, (o1, o2) ∈ P → s1.buf[o1]? = s2.buf[o2]?
  inj : ∀ a b a' b', (a, b) ∈ P → (a', b') ∈ P → (a = a' ↔ b = b')

/-- `B` continues `buf`; in the items written so far track bits may have been set. -/
structure Grown (base : Nat) (X : Nat → Prop) (buf B : Bytes) : Prop where
  size : B.length ≤ maxSize
  len : buf.length ≤ B.length
  body : ∀ i, base ≤ i → i < buf.length → ¬ X i → B[i]? = buf[i]?
  heads : ∀ i b, X i → buf[i]? = some b → ∃ c, B[i]? = some c ∧ c.toNat % 128 = b.toNat % 128

/-- Both buffers continue, with the same track bits. -/
structure Ripe (base1 base2 : Nat) (P : List (Nat × Nat)) (s1 s2 : EState) (B1 B2 : Bytes) : Prop where
  g1 : Grown base1 (Lefts P) s1.buf B1
  g2 : Grown base2 (Rights P) s2.buf B2
  same : ∀ o1 o2, (o1, o2) ∈ P → B1[o1]? = B2[o2]?

theorem Grown.span {base : Nat} {X : Nat → Prop} {buf B : Bytes} (h : Grown base X buf B) {i j : Nat} {w : Bytes}
    (hs : Span buf i w j) (hb : base ≤ i) (hX : ∀ x, i ≤ x → x < j → ¬ X x) : Span B i w j := by
  refine hs.congr (fun p h1 h2 => h.body p (by omega) ?_ (hX p h1 h2))
  have := hs.1.length_le
  rw [List.length_drop] at this
  have := hs.2
  omega

theorem Grown.back {base : Nat} {X X' : Nat → Prop} {buf w B : Bytes} (h : Grown base X' (buf ++ w) B)
    (h1 : ∀ o, X o → X' o) (h2 : ∀ o, X' o → X o ∨ buf.length ≤ o) : Grown base X buf B where
  size := h.size
  len := by have := h.len; rw [List.length_append] at this; omega
  body i hb hi hX := by
    rw [h.body i hb (by rw [List.length_append]; omega) (fun hx => (h2 i hx).elim hX (by omega)),
      List.getElem?_append_left hi]
  heads i b hX hi := by
    have hlt := (List.getElem?_eq_some_iff.1 hi).1
    exact h.heads i b (h1 i hX) (by rw [List.getElem?_append_left hlt]; exact hi)

theorem Side.more {base : Nat} {X X' : Nat → Prop} {s : EState} (h : Side base X s) (w : Bytes)
    (hX : ∀ o, X' o → X o ∨ (s.buf.length ≤ o ∧ o < s.buf.length + w.length)) :
    Side base X' { s with buf := s.buf ++ w } where
  base_le := by dsimp only; rw [List.length_append]; have := h.base_le; omega
  heads o ho := by
    dsimp only
    rw [List.length_append]
    rcases hX o ho with h1 | h1
    · have := h.heads o h1; omega
    · have := h.base_le; omega
  strs k o ho := by
    obtain ⟨v, h1, h2, h3, h4⟩ := h.strs k o ho
    have hlen : o + v.length ≤ s.buf.length := by
      have := h3.1.length_le
      rw [List.length_drop] at this
      have hv : 0 < v.length := by
        rcases h1 with rfl | rfl
        · have := strItem_length k; omega
        · have := binItem_length k; omega
      omega
    refine ⟨v, h1, h2, h3.congr (fun p _ hp => ?_), fun x hx hx' hc => ?_⟩
    · exact List.getElem?_append_left (by omega)
    · rcases hX x hc with hc | hc
      · exact h4 x hx hx' hc
      · omega

theorem List.getElem?_append_len {a w : Bytes} {x : UInt8} : (a ++ x :: w)[a.length]? = some x := by simp

section
variable {b1 b2 : Nat} {P : List (Nat × Nat)} {s1 s2 : EState}

/-- Bytes that belong to no new item. -/
theorem EPair.more (h : EPair b1 b2 P s1 s2) (w1 w2 : Bytes) :
    EPair b1 b2 P { s1 with buf := s1.buf ++ w1 } { s2 with buf := s2.buf ++ w2 } where
  side1 := h.side1.more w1 (fun _ h => .inl h)
  side2 := h.side2.more w2 (fun _ h => .inl h)
  visits := h.visits
  ptrs := h.ptrs
  same o1 o2 ho := by
    have h1 := (h.side1.heads o1 ⟨o2, ho⟩).2
    have h2 := (h.side2.heads o2 ⟨o1, ho⟩).2
    dsimp only
    rw [List.getElem?_append_left h1, List.getElem?_append_left h2]
    exact h.same o1 o2 ho
  inj := h.inj

theorem Ripe.more_back {w1 w2 B1 B2 : Bytes}
    (h : Ripe b1 b2 P { s1 with buf := s1.buf ++ w1 } { s2 with buf := s2.buf ++ w2 } B1 B2) :
    Ripe b1 b2 P s1 s2 B1 B2 :=
  ⟨h.g1.back (fun _ h => h) (fun _ h => .inl h), h.g2.back (fun _ h => h) (fun _ h => .inl h), h.same⟩

/-- A new item begins. -/
theorem EPair.begin (h : EPair b1 b2 P s1 s2) (t : UInt8) (w1 w2 : Bytes) :
    EPair b1 b2 ((s1.buf.length, s2.buf.length) :: P) { s1 with buf := s1.buf ++ t :: w1 }
      { s2 with buf := s2.buf ++ t :: w2 } where
  side1 := h.side1.more _ (fun o ⟨o', ho⟩ => by
    rcases List.mem_cons.1 ho with h1 | h1
    · cases h1; exact .inr ⟨Nat.le_refl _, by simp⟩
    · exact .inl ⟨o', h1⟩)
  side2 := h.side2.more _ (fun o ⟨o', ho⟩ => by
    rcases List.mem_cons.1 ho with h1 | h1
    · cases h1; exact .inr ⟨Nat.le_refl _, by simp⟩
    · exact .inl ⟨o', h1⟩)
  visits := h.visits
  ptrs a := by
    rcases h.ptrs a with h1 | ⟨o1, o2, h1, h2, h3⟩
    · exact .inl h1
    · exact .inr ⟨o1, o2, h1, h2, List.mem_cons_of_mem _ h3⟩
  same o1 o2 ho := by
    dsimp only
    rcases List.mem_cons.1 ho with h1 | h1
    · cases h1
      rw [List.getElem?_append_len, List.getElem?_append_len]
    · have h3 := (h.side1.heads o1 ⟨o2, h1⟩).2
      have h4 := (h.side2.heads o2 ⟨o1, h1⟩).2
      rw [List.getElem?_append_left h3, List.getElem?_append_left h4]
      exact h.same o1 o2 h1
  inj a b a' b' ha ha' := by
    rcases List.mem_cons.1 ha with h1 | h1 <;> rcases List.mem_cons.1 ha' with h2 | h2
    · cases h1; cases h2; simp
    · cases h1
      have h3 := (h.side1.heads a' ⟨b', h2⟩).2
      have h4 := (h.side2.heads b' ⟨a', h2⟩).2
      omega
    · cases h2
      have h3 := (h.side1.heads a ⟨b, h1⟩).2
      have h4 := (h.side2.heads b ⟨a, h1⟩).2
      omega
    · exact h.inj a b a' b' h1 h2

theorem Ripe.begin_back {t : UInt8} {w1 w2 B1 B2 : Bytes}
    (h : Ripe b1 b2 ((s1.buf.length, s2.buf.length) :: P) { s1 with buf := s1.buf ++ t :: w1 }
      { s2 with buf := s2.buf ++ t :: w2 } B1 B2) :
    Ripe b1 b2 P s1 s2 B1 B2 :=
  ⟨h.g1.back (fun _ ⟨o', ho⟩ => ⟨o', List.mem_cons_of_mem _ ho⟩) (fun o ⟨o', ho⟩ => by
      rcases List.mem_cons.1 ho with h1 | h1
      · cases h1; exact .inr (Nat.le_refl _)
      · exact .inl ⟨o', h1⟩),
    h.g2.back (fun _ ⟨o', ho⟩ => ⟨o', List.mem_cons_of_mem _ ho⟩) (fun o ⟨o', ho⟩ => by
      rcases List.mem_cons.1 ho with h1 | h1
      · cases h1; exact .inr (Nat.le_refl _)
      · exact .inl ⟨o', h1⟩),
    fun o1 o2 ho => h.same o1 o2 (List.mem_cons_of_mem _ ho)⟩

/-- What the finished buffers hold at a new item. -/
theorem Ripe.begin_read (hp : EPair b1 b2 P s1 s2) {t : UInt8} {w1 w2 B1 B2 : Bytes}
    (h : Ripe b1 b2 ((s1.buf.length, s2.buf.length) :: P) { s1 with buf := s1.buf ++ t :: w1 }
      { s2 with buf := s2.buf ++ t :: w2 } B1 B2) :
    ∃ b, B1[s1.buf.length]? = some b ∧ B2[s2.buf.length]? = some b ∧ b.toNat % 128 = t.toNat % 128 ∧
      Span B1 (s1.buf.length + 1) w1 (s1.buf.length + 1 + w1.length) ∧
      Span B2 (s2.buf.length + 1) w2 (s2.buf.length + 1 + w2.length) := by
  have hm : (s1.buf.length, s2.buf.length) ∈ (s1.buf.length, s2.buf.length) :: P := List.mem_cons_self
  obtain ⟨c, h1, h2⟩ := h.g1.heads s1.buf.length t ⟨_, hm⟩ List.getElem?_append_len
  have hsp : ∀ (a w : Bytes), Span (a ++ t :: w) (a.length + 1) w (a.length + 1 + w.length) := by
    intro a w
    refine ⟨?_, rfl⟩
    rw [show a ++ t :: w = (a ++ [t]) ++ w by simp, show a.length + 1 = (a ++ [t]).length by simp, List.drop_left]
    exact List.prefix_refl _
  refine ⟨c, h1, by rw [← h.same _ _ hm]; exact h1, h2, ?_, ?_⟩
  · refine h.g1.span (hsp _ _) (by have := hp.side1.base_le; omega) (fun x hx _ ⟨o', ho⟩ => ?_)
    rcases List.mem_cons.1 ho with h3 | h3
    · cases h3; omega
    · have := (hp.side1.heads x ⟨o', h3⟩).2; omega
  · refine h.g2.span (hsp _ _) (by have := hp.side2.base_le; omega) (fun x hx _ ⟨o', ho⟩ => ?_)
    rcases List.mem_cons.1 ho with h3 | h3
    · cases h3; omega
    · have := (hp.side2.heads x ⟨o', h3⟩).2; omega

/-- A literal string on one side. -/
theorem Side.lit {base : Nat} {X : Nat → Prop} {s : EState} (hs : Side base X s) {k w B : Bytes}
    (hw : w = strItem k ∨ w = binItem k) (h : Grown base X (s.buf ++ w) B) :
    Strish wrtDialect B false s.buf.length k (s.buf.length + w.length) := by
  have hlen := h.len
  rw [List.length_append] at hlen
  have hkl : k.length < w.length := by
    rcases hw with rfl | rfl
    · exact strItem_length k
    · exact binItem_length k
  have hk : k.length ≤ maxSize := by have := h.size; omega
  have hsp : Span B s.buf.length w (s.buf.length + w.length) := by
    refine h.span ⟨?_, rfl⟩ hs.base_le (fun x hx _ hX => by have := (hs.heads x hX).2; omega)
    rw [List.drop_left]; exact List.prefix_refl _
  rcases hw with rfl | rfl
  · exact .lit (Lit.of_strItem hsp hk)
  · exact .lit (Lit.of_binItem hsp hk)

/-- A COPY on one side. -/
theorem Side.copy {base : Nat} {X : Nat → Prop} {s : EState} (hs : Side base X s) {k B : Bytes} {o : Nat}
    (ho : s.strTable k = some o) (h : Grown base X (s.buf ++ copyItem o) B) :
    Strish wrtDialect B false s.buf.length k (s.buf.length + (copyItem o).length) := by
  have hlen := h.len
  have hsz := h.size
  rw [List.length_append] at hlen
  obtain ⟨w, hw, hb, hsp, hX⟩ := hs.strs k o ho
  have hkl : k.length < w.length := by
    rcases hw with rfl | rfl
    · exact strItem_length k
    · exact binItem_length k
  have hwl : o + w.length ≤ s.buf.length := by
    have := hsp.1.length_le
    rw [List.length_drop] at this
    omega
  have hc : Span B s.buf.length (copyItem o) (s.buf.length + (copyItem o).length) := by
    refine h.span ⟨?_, rfl⟩ hs.base_le (fun x hx _ hX => by have := (hs.heads x hX).2; omega)
    rw [List.drop_left]; exact List.prefix_refl _
  have hl : Span B o w (o + w.length) :=
    (h.back (X := X) (fun _ h => h) (fun _ h => .inl h)).span hsp hb hX
  have hk : k.length ≤ maxSize := by omega
  have ho64 : o < 2 ^ 64 := by simp only [maxSize] at hsz; omega
  obtain ⟨h1, h2⟩ := Span.head hc
  rcases hw with rfl | rfl
  · exact .copy (.inl rfl) (TagAt.here' h1 (by decide)) (by decide) (Vint.of_span h2 ho64) (by omega)
      (Lit.of_strItem hl hk) (fun _ => ⟨by omega, NotPad.of_strItem hl⟩)
  · exact .copy (.inl rfl) (TagAt.here' h1 (by decide)) (by decide) (Vint.of_span h2 ho64) (by omega)
      (Lit.of_binItem hl hk) (fun _ => ⟨by omega, NotPad.of_binItem hl⟩)

/-! ### Two runs -/

/-- Both runs succeed and are related by `R`, or both fail with the same error. -/
def BothEmit (R : EState → EState → Prop) (r1 r2 : Except Exn (Unit × EState)) : Prop :=
  match r1, r2 with
  | .ok (_, t1), .ok (_, t2) => R t1 t2
  | .error e, .error e' => e = e'
  | _, _ => False

theorem BothEmit.bind {R R' : EState → EState → Prop} {x1 x2 : E Unit} {f1 f2 : Unit → E Unit}
    (h : BothEmit R (x1 s1) (x2 s2)) (hf : ∀ t1 t2, R t1 t2 → BothEmit R' (f1 () t1) (f2 () t2)) :
    BothEmit R' ((x1 >>= f1) s1) ((x2 >>= f2) s2) := by
  show BothEmit R' (E.bind x1 f1 s1) (E.bind x2 f2 s2)
  unfold E.bind
  cases h1 : x1 s1 with
  | ok p1 =>
    cases h2 : x2 s2 with
    | ok p2 => rw [h1, h2] at h; exact hf _ _ h
    | error e => rw [h1, h2] at h; exact absurd h id
  | error e =>
    cases h2 : x2 s2 with
    | ok p2 => rw [h1, h2] at h; exact absurd h id
    | error e' => rw [h1, h2] at h; exact h

theorem BothEmit.imp {R R' : EState → EState → Prop} {r1 r2 : Except Exn (Unit × EState)} (h : BothEmit R r1 r2)
    (hi : ∀ t1 t2, R t1 t2 → R' t1 t2) : BothEmit R' r1 r2 := by
  unfold BothEmit at *
  split at h <;> simp_all

/-- Two runs have written a key or class name. -/
structure WroteKey (b1 b2 : Nat) (k : Bytes) (P : List (Nat × Nat)) (s1 s2 t1 t2 : EState) : Prop where
  inv : EPair b1 b2 P t1 t2
  back : ∀ B1 B2, Ripe b1 b2 P t1 t2 B1 B2 → Ripe b1 b2 P s1 s2 B1 B2
  reads : ∀ B1 B2, Ripe b1 b2 P t1 t2 B1 B2 →
    Strish wrtDialect B1 false s1.buf.length k t1.buf.length ∧ Strish wrtDialect B2 false s2.buf.length k t2.buf.length

/-- `Twin`, with further pairs of corresponding positions allowed. -/
def TwinFrom (B1 B2 : Bytes) (job : TwinJob) (P : List (Nat × Nat)) (i1 i2 j1 j2 : Nat) (P' : List (Nat × Nat)) : Prop :=
  ∀ Q, (∀ x, x ∈ P → x ∈ Q) → ∃ Q', (∀ x, x ∈ P' → x ∈ Q') ∧ Twin B1 B2 job Q i1 i2 j1 j2 Q'

/-- Two runs have written corresponding jobs. -/
structure WroteTwin (b1 b2 : Nat) (job : TwinJob) (P : List (Nat × Nat)) (s1 s2 : EState) (P' : List (Nat × Nat))
    (t1 t2 : EState) : Prop where
  inv : EPair b1 b2 P' t1 t2
  back : ∀ B1 B2, Ripe b1 b2 P' t1 t2 B1 B2 → Ripe b1 b2 P s1 s2 B1 B2
  sub : ∀ x, x ∈ P → x ∈ P'
  head : job = .item → (s1.buf.length, s2.buf.length) ∈ P'
  reads : ∀ B1 B2, Ripe b1 b2 P' t1 t2 B1 B2 →
    TwinFrom B1 B2 job P s1.buf.length s2.buf.length t1.buf.length t2.buf.length P'

/-- The two actions write a key. -/
def TwinKey (x1 x2 : E Unit) (k : Bytes) : Prop :=
  ∀ b1 b2 P s1 s2, EPair b1 b2 P s1 s2 → BothEmit (WroteKey b1 b2 k P s1 s2) (x1 s1) (x2 s2)

/-- The two actions write corresponding jobs. -/
def TwinEmit (x1 x2 : E Unit) (job : TwinJob) : Prop :=
  ∀ b1 b2 P s1 s2, EPair b1 b2 P s1 s2 →
    BothEmit (fun t1 t2 => ∃ P', WroteTwin b1 b2 job P s1 s2 P' t1 t2) (x1 s1) (x2 s2)

/-- One side of writing a key. -/
def keyRun (dedup : Bool) (k w : Bytes) : E Unit := do
  if dedup then
    match (← E.get).strTable k with
    | some offs => emit (copyItem offs)
    | none => do
      rememberStr k
      emit w
  else emit w

theorem keyRun_ok (dedup : Bool) (k w : Bytes) (s : EState) (hw : w = strItem k ∨ w = binItem k) :
    ∃ v t, keyRun dedup k w s = .ok ((), t) ∧ t.buf = s.buf ++ v ∧ t.ptrTable = s.ptrTable ∧ t.visits = s.visits ∧
      ((v = w ∧ (t.strTable = s.strTable ∨
          t.strTable = fun k' => if k' = k then some s.buf.length else s.strTable k')) ∨
        ∃ o, s.strTable k = some o ∧ v = copyItem o ∧ t.strTable = s.strTable) := by
  cases dedup with
  | false => exact ⟨w, _, rfl, rfl, rfl, rfl, .inl ⟨rfl, .inl rfl⟩⟩
  | true =>
    cases ho : s.strTable k with
    | some o =>
      refine ⟨copyItem o, { s with buf := s.buf ++ copyItem o }, ?_, rfl, rfl, rfl, .inr ⟨o, rfl, rfl, rfl⟩⟩
      simp only [keyRun, if_true, bind, E.bind, E.get, ho]
      rfl
    | none =>
      refine ⟨w, ⟨s.buf ++ w, fun k' => if k' = k then some s.buf.length else s.strTable k', s.ptrTable, s.visits⟩,
        ?_, rfl, rfl, rfl, .inl ⟨rfl, .inr rfl⟩⟩
      simp only [keyRun, if_true, bind, E.bind, E.get, ho]
      rfl

/-- The invariant of one side after writing a key. -/
theorem Side.key {base : Nat} {X : Nat → Prop} {s t : EState} (hs : Side base X s) {k v w : Bytes}
    (hw : w = strItem k ∨ w = binItem k) (hb : t.buf = s.buf ++ v)
    (hv : (v = w ∧ (t.strTable = s.strTable ∨
          t.strTable = fun k' => if k' = k then some s.buf.length else s.strTable k')) ∨
        ∃ o, s.strTable k = some o ∧ v = copyItem o ∧ t.strTable = s.strTable) : Side base X t := by
  have hm := hs.more (X' := X) v (fun _ h => .inl h)
  refine ⟨by rw [hb]; exact hm.base_le, by rw [hb]; exact hm.heads, ?_⟩
  rw [hb]
  have old : t.strTable = s.strTable → ∀ k o, t.strTable k = some o → ∃ w, (w = strItem k ∨ w = binItem k) ∧ base ≤ o ∧
      Span (s.buf ++ v) o w (o + w.length) ∧ ∀ x, o ≤ x → x < o + w.length → ¬ X x := by
    intro h; rw [h]; exact hm.strs
  rcases hv with ⟨rfl, h | h⟩ | ⟨o, _, _, h⟩
  · exact old h
  · rw [h]
    intro k' o ho
    dsimp only at ho
    by_cases hk : k' = k
    · rw [if_pos hk] at ho
      cases ho
      subst hk
      refine ⟨v, hw, hs.base_le, ⟨?_, rfl⟩, fun x hx _ hX => by have := (hs.heads x hX).2; omega⟩
      rw [List.drop_left]; exact List.prefix_refl _
    · rw [if_neg hk] at ho
      exact hm.strs k' o ho
  · exact old h

theorem Side.key_read {base : Nat} {X : Nat → Prop} {s t : EState} (hs : Side base X s) {k v w B : Bytes}
    (hw : w = strItem k ∨ w = binItem k) (hb : t.buf = s.buf ++ v)
    (hv : (v = w ∧ (t.strTable = s.strTable ∨
          t.strTable = fun k' => if k' = k then some s.buf.length else s.strTable k')) ∨
        ∃ o, s.strTable k = some o ∧ v = copyItem o ∧ t.strTable = s.strTable) (h : Grown base X t.buf B) :
    Strish wrtDialect B false s.buf.length k t.buf.length := by
  rw [hb] at h ⊢
  rw [List.length_append]
  rcases hv with ⟨rfl, _⟩ | ⟨o, ho, rfl, _⟩
  · exact hs.lit hw h
  · exact hs.copy ho h

/-- Writing a key, with or without deduplication on either side. -/
theorem twinKey {d1 d2 : Bool} {k w1 w2 : Bytes} (hw1 : w1 = strItem k ∨ w1 = binItem k)
    (hw2 : w2 = strItem k ∨ w2 = binItem k) : TwinKey (keyRun d1 k w1) (keyRun d2 k w2) k := by
  intro b1 b2 P s1 s2 h
  obtain ⟨v1, t1, e1, x1, y1, z1, c1⟩ := keyRun_ok d1 k w1 s1 hw1
  obtain ⟨v2, t2, e2, x2, y2, z2, c2⟩ := keyRun_ok d2 k w2 s2 hw2
  rw [e1, e2]
  have hm := h.more v1 v2
  refine ⟨⟨h.side1.key hw1 x1 c1, h.side2.key hw2 x2 c2, by rw [z1, z2]; exact h.visits,
    by rw [y1, y2]; exact h.ptrs, by rw [x1, x2]; exact hm.same, h.inj⟩, fun B1 B2 hr => ?_, fun B1 B2 hr => ?_⟩
  · refine Ripe.more_back (w1 := v1) (w2 := v2) ⟨?_, ?_, hr.same⟩
    · have := hr.g1; rw [x1] at this; exact this
    · have := hr.g2; rw [x2] at this; exact this
  · exact ⟨h.side1.key_read hw1 x1 c1 hr.g1, h.side2.key_read hw2 x2 c2 hr.g2⟩

theorem encodeString_key (c : ECfg) (k : Bytes) (b : Bool) : encodeString c k b = keyRun (!c.disableDedup && b) k (strItem k) := rfl
theorem encodeBytes_key (c : ECfg) (k : Bytes) (b : Bool) : encodeBytes c k b = keyRun (!c.disableDedup && b) k (binItem k) := rfl

theorem twinKey_string (c1 c2 : ECfg) (k : Bytes) (b : Bool) : TwinKey (encodeString c1 k b) (encodeString c2 k b) k := by
  rw [encodeString_key, encodeString_key]; exact twinKey (.inl rfl) (.inl rfl)
theorem twinKey_bytes (c1 c2 : ECfg) (k : Bytes) (b : Bool) : TwinKey (encodeBytes c1 k b) (encodeBytes c2 k b) k := by
  rw [encodeBytes_key, encodeBytes_key]; exact twinKey (.inr rfl) (.inr rfl)

end
end Sereal
