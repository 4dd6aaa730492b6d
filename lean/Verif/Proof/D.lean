import Verif.Model.Decode
import Verif.Proof.Varint
import Verif.Spec.Grammar
/-
Reasoning about the decoder monad.
-/
namespace Sereal

theorem D.pure_apply (a : α) (s : DState) : (Pure.pure a : D α) s = (.ok a, s) := rfl
theorem D.bind_apply (x : D α) (f : α → D β) (s : DState) :
    (x >>= f) s = match x s with
      | (.ok a, s') => f a s'
      | (.error e, s') => (.error e, s') := rfl

theorem D.bind_ok {x : D α} {f : α → D β} {s s' : DState} {b : β} :
    (x >>= f) s = (.ok b, s') ↔ ∃ a s1, x s = (.ok a, s1) ∧ f a s1 = (.ok b, s') := by
  rw [D.bind_apply]
  constructor
  · intro h
    split at h
    · rename_i a s1 hx; exact ⟨a, s1, hx, h⟩
    · cases h
  · rintro ⟨a, s1, hx, hf⟩; rw [hx]; exact hf

theorem D.bind_error {x : D α} {f : α → D β} {s s' : DState} {e : Exn} :
    (x >>= f) s = (.error e, s') ↔
      x s = (.error e, s') ∨ ∃ a s1, x s = (.ok a, s1) ∧ f a s1 = (.error e, s') := by
  rw [D.bind_apply]
  constructor
  · intro h
    split at h
    · rename_i a s1 hx; exact Or.inr ⟨a, s1, hx, h⟩
    · rename_i e' s1 hx; cases h; exact Or.inl hx
  · rintro (hx | ⟨a, s1, hx, hf⟩)
    · rw [hx]
    · rw [hx]; exact hf

/-- Forward step. -/
theorem D.bind_eq {x : D α} {f : α → D β} {s s1 : DState} {a : α} (h : x s = (.ok a, s1)) :
    (x >>= f) s = f a s1 := by rw [D.bind_apply, h]

theorem D.pure_ok {a b : α} {s s' : DState} :
    (Pure.pure a : D α) s = (.ok b, s') ↔ a = b ∧ s = s' := by
  rw [D.pure_apply]; simp

theorem D.fail_ok {e : Exn} {a : α} {s s' : DState} :
    (D.fail e : D α) s = (.ok a, s') ↔ False := by simp [D.fail]

theorem D.err_ok {e : Err} {a : α} {s s' : DState} :
    (D.err e : D α) s = (.ok a, s') ↔ False := by simp [D.err, D.fail]

theorem D.failIf_ok {c : Prop} [Decidable c] {e : Exn} {u : Unit} {s s' : DState} :
    D.failIf c e s = (.ok u, s') ↔ ¬ c ∧ s = s' := by
  simp only [D.failIf]
  split
  · simp [D.fail, *]
  · simp [D.pure, *]

theorem D.failIf_pass {c : Prop} [Decidable c] {e : Exn} {s : DState} (h : ¬ c) :
    D.failIf c e s = (.ok (), s) := D.failIf_ok.2 ⟨h, rfl⟩

theorem D.failIf_error {c : Prop} [Decidable c] {e e' : Exn} {s s' : DState} :
    D.failIf c e s = (.error e', s') ↔ c ∧ e = e' ∧ s = s' := by
  simp only [D.failIf]
  split
  · simp [D.fail, *]
  · simp [D.pure, *]

theorem D.lift_ok {r : Res α} {a : α} {s s' : DState} :
    D.lift r s = (.ok a, s') ↔ r = .ok a ∧ s = s' := by simp [D.lift]
theorem D.lift_error {r : Res α} {e : Exn} {s s' : DState} :
    D.lift r s = (.error e, s') ↔ r = .error e ∧ s = s' := by simp [D.lift]

theorem D.get_ok {x s s' : DState} : D.get s = (.ok x, s') ↔ s = x ∧ s = s' := by simp [D.get]
theorem D.get_apply (s : DState) : D.get s = (.ok s, s) := rfl

theorem tick_apply (s : DState) : tick s = (.ok (), { s with steps := s.steps + 1 }) := rfl
theorem charge_apply (n : Nat) (s : DState) :
    charge n s = (.ok (), { s with alloc := s.alloc + n, peak := max s.peak n }) := rfl
theorem readLoc_apply (l : Loc) (s : DState) : readLoc l s = (.ok (s.heap.read l), s) := rfl
theorem writeLoc_apply (l : Loc) (v : Val) (s : DState) :
    writeLoc l v s = (.ok (), { s with heap := s.heap.write l v }) := rfl
theorem allocVar_apply (v : Val) (s : DState) :
    allocVar v s = (.ok s.heap.next, { s with heap := (s.heap.alloc (.cell v)).2 }) := rfl
theorem allocObj_apply (o : HObj) (s : DState) :
    allocObj o s = (.ok s.heap.next, { s with heap := (s.heap.alloc o).2 }) := rfl
theorem allocSlice_apply (n : Nat) (s : DState) :
    allocSlice n s = (.ok s.heap.next, { s with heap := (s.heap.allocCells n).2 }) := rfl
theorem mapSet_apply (m : Addr) (k : Bytes) (v : Val) (s : DState) :
    mapSet m k v s =
      (.ok (), { s with heap := s.heap.set m (.mp (mapInsert k v (s.heap.mapAt m))) }) := rfl
theorem track_apply (i : Nat) (l : Loc) (s : DState) :
    track i l s =
      (.ok (), { s with tracked := fun o => if o = i then some l else s.tracked o }) := rfl

theorem byteAt_ok {buf : Bytes} {i : Nat} {b : UInt8} {s s' : DState} :
    byteAt buf i s = (.ok b, s') ↔ buf[i]? = some b ∧ s = s' := by
  unfold byteAt
  cases h : buf[i]? <;> simp [D.pure_apply, D.fail]

theorem byteAt_apply {buf : Bytes} {i : Nat} {b : UInt8} (h : buf[i]? = some b) (s : DState) :
    byteAt buf i s = (.ok b, s) := byteAt_ok.2 ⟨h, rfl⟩

theorem sliceFrom_ok {buf : Bytes} {i : Nat} {t : Bytes} {s s' : DState} :
    sliceFrom buf i s = (.ok t, s') ↔ i ≤ buf.length ∧ t = buf.drop i ∧ s = s' := by
  unfold sliceFrom
  split <;> simp [D.pure_apply, D.fail, *, eq_comm]

theorem sliceRange_ok {buf : Bytes} {i j : Nat} {t : Bytes} {s s' : DState} :
    sliceRange buf i j s = (.ok t, s') ↔
      i ≤ j ∧ j ≤ buf.length ∧ t = (buf.drop i).take (j - i) ∧ s = s' := by
  unfold sliceRange
  split
  · rename_i h; simp [D.pure_apply, h.1, h.2, eq_comm]
  · rename_i h; simp [D.fail]; omega

theorem varintAt_ok {buf : Bytes} {i : Nat} {r : Int × Nat} {s s' : DState} :
    varintAt buf i s = (.ok r, s') ↔
      i ≤ buf.length ∧ varintdecode (buf.drop i) = .ok r ∧ s = s' := by
  unfold varintAt
  simp only [D.bind_ok, sliceFrom_ok, D.lift_ok]
  constructor
  · rintro ⟨t, s1, ⟨h1, rfl, rfl⟩, h2, rfl⟩; exact ⟨h1, h2, rfl⟩
  · rintro ⟨h1, h2, rfl⟩; exact ⟨_, _, ⟨h1, rfl, rfl⟩, h2, rfl⟩

/-! ### Padding -/

theorem isPad_iff (b : UInt8) :
    (b = typePAD ∨ b = typePAD ||| trackFlag) ↔ b.toNat % 128 = 0x3f := by
  revert b; apply u8_forall; set_option maxRecDepth 8000 in decide

theorem skipPad_ok {buf : Bytes} {i k : Nat} {b : UInt8} :
    skipPad buf i = .ok (k, b) ↔ TagAt buf i k b := by
  constructor
  · intro h
    fun_induction skipPad buf i with
    | case1 => simp at h
    | case2 i tag hi hp ih =>
      obtain ⟨h1, h2, h3, h4⟩ := ih h
      refine ⟨by omega, fun x hx hx' => ?_, h3, h4⟩
      by_cases hxi : x = i
      · subst hxi; exact ⟨tag, hi, (isPad_iff _).1 hp⟩
      · exact h2 x (by omega) hx'
    | case3 i tag hi hp =>
      simp at h
      obtain ⟨rfl, rfl⟩ := h
      exact ⟨Nat.le_refl _, fun x _ _ => by omega, hi, fun hc => hp ((isPad_iff _).2 hc)⟩
  · intro h
    fun_induction skipPad buf i with
    | case1 i hi =>
      obtain ⟨h1, h2, h3, h4⟩ := h
      exfalso
      by_cases hik : i = k
      · subst hik; rw [hi] at h3; cases h3
      · obtain ⟨p, hp, _⟩ := h2 i (Nat.le_refl _) (by omega)
        rw [hi] at hp; cases hp
    | case2 i tag hi hp ih =>
      obtain ⟨h1, h2, h3, h4⟩ := h
      have hik : i ≠ k := by
        rintro rfl
        rw [hi] at h3; cases h3
        exact h4 ((isPad_iff _).1 hp)
      exact ih ⟨by omega, fun x hx hx' => h2 x (by omega) hx', h3, h4⟩
    | case3 i tag hi hp =>
      obtain ⟨h1, h2, h3, h4⟩ := h
      have hik : i = k := by
        by_cases hik : i = k
        · exact hik
        · obtain ⟨p, hp', hp''⟩ := h2 i (Nat.le_refl _) (by omega)
          rw [hi] at hp'; cases hp'
          exact absurd ((isPad_iff _).2 hp'') hp
      subst hik
      rw [hi] at h3; cases h3; rfl

theorem skipPad_error {buf : Bytes} {i : Nat} {e : Exn} (h : skipPad buf i = .error e) :
    e = .err .truncated := by
  fun_induction skipPad buf i with
  | case1 => simp at h; exact h.symm
  | case2 i tag hi hp ih => exact ih h
  | case3 => simp at h

theorem TagAt.lt {buf : Bytes} {i k : Nat} {b : UInt8} (h : TagAt buf i k b) : k < buf.length :=
  (List.getElem?_eq_some_iff.mp h.2.2.1).1

theorem TagAt.le {buf : Bytes} {i k : Nat} {b : UInt8} (h : TagAt buf i k b) : i ≤ k := h.1

theorem TagAt.unique {buf : Bytes} {i k k' : Nat} {b b' : UInt8} (h : TagAt buf i k b)
    (h' : TagAt buf i k' b') : k = k' ∧ b = b' := by
  have := (skipPad_ok.2 h).symm.trans (skipPad_ok.2 h')
  simpa using this

/-! ### Spans and varints -/

theorem Span.le {buf : Bytes} {i j : Nat} {s : Bytes} (h : Span buf i s j) : i ≤ j := by
  have := h.2; omega

theorem Span.le_length {buf : Bytes} {i j : Nat} {s : Bytes} (h : Span buf i s j)
    (hi : i ≤ buf.length) : j ≤ buf.length := by
  have := h.1.length_le
  rw [List.length_drop] at this
  have := h.2
  omega

theorem span_iff {buf : Bytes} {i j : Nat} {s : Bytes} (hi : i ≤ buf.length) :
    Span buf i s j ↔ i ≤ j ∧ j ≤ buf.length ∧ s = (buf.drop i).take (j - i) := by
  constructor
  · intro h
    refine ⟨h.le, h.le_length hi, ?_⟩
    rw [h.2]
    have := List.prefix_iff_eq_take.mp h.1
    rw [show i + s.length - i = s.length by omega]
    exact this
  · rintro ⟨h1, h2, rfl⟩
    refine ⟨List.take_prefix _ _, ?_⟩
    rw [List.length_take, List.length_drop]; omega

theorem Span.unique {buf : Bytes} {i j j' : Nat} {s s' : Bytes} (h : Span buf i s j)
    (h' : Span buf i s' j') (hl : s.length = s'.length) : s = s' ∧ j = j' := by
  have h1 := List.prefix_iff_eq_take.mp h.1
  have h2 := List.prefix_iff_eq_take.mp h'.1
  rw [hl] at h1
  refine ⟨h1.trans h2.symm, ?_⟩
  rw [h.2, h'.2, hl]

theorem isVarint_prefix_unique {v w r1 r2 : Bytes} (hv : IsVarint v) (hw : IsVarint w)
    (he : v ++ r1 = w ++ r2) : v = w := by
  induction v generalizing w with
  | nil => simp [IsVarint] at hv
  | cons a v ih =>
    cases w with
    | nil => simp [IsVarint] at hw
    | cons c w =>
      simp at he
      obtain ⟨rfl, he⟩ := he
      cases v with
      | nil =>
        cases w with
        | nil => rfl
        | cons d w => have h1 : a.toNat < 128 := hv; have := hw.1; omega
      | cons d v =>
        cases w with
        | nil => have h1 : a.toNat < 128 := hw; have := hv.1; omega
        | cons e w => rw [ih hv.2 hw.2 he]

theorem IsVarint.length_pos {v : Bytes} (h : IsVarint v) : 0 < v.length := by
  cases v with
  | nil => simp [IsVarint] at h
  | cons => simp

theorem Vint.unique {d : Dialect} {buf : Bytes} {i n n' j j' : Nat} (h : Vint d buf i n j)
    (h' : Vint d buf i n' j') : n = n' ∧ j = j' := by
  obtain ⟨v, hv, _, hs, hn⟩ := h
  obtain ⟨w, hw, _, hs', hn'⟩ := h'
  obtain ⟨r1, h1⟩ := hs.1
  obtain ⟨r2, h2⟩ := hs'.1
  have := isVarint_prefix_unique hv hw (h1.trans h2.symm)
  subst this
  rw [hn] at hn'
  exact ⟨by simpa using hn', by rw [hs.2, hs'.2]⟩

theorem Vint.lt {d : Dialect} {buf : Bytes} {i n j : Nat} (h : Vint d buf i n j) : i < j := by
  obtain ⟨v, hv, _, hs, _⟩ := h
  have := hs.2; have := hv.length_pos; omega

theorem Vint.le_length {d : Dialect} {buf : Bytes} {i n j : Nat} (h : Vint d buf i n j) :
    j ≤ buf.length := by
  obtain ⟨v, hv, _, hs, _⟩ := h
  have := hs.1.length_le
  have := hs.2; have := hv.length_pos
  rw [List.length_drop] at *
  omega

/-- The signed view of a 64-bit number. -/
def sgn (n : Nat) : Int := (BitVec.ofNat 64 n).toInt

theorem sgn_small {n : Nat} (h : n < 2 ^ 63) : sgn n = n := toInt_ofNat_small h

theorem sgn_big {n : Nat} (h : 2 ^ 63 ≤ n) (h' : n < 2 ^ 64) : sgn n < 0 := by
  unfold sgn
  simp only [BitVec.toInt, BitVec.toNat_ofNat]
  split <;> omega

theorem sgn_mod (n : Nat) : sgn (n % 2 ^ 64) = sgn n := by
  unfold sgn; congr 1; apply BitVec.eq_of_toNat_eq; simp

/-- `varintAt` succeeds exactly on a varint of the Go dialect. -/
theorem varintAt_ok_iff {buf : Bytes} {i : Nat} {r : Int} {sz : Nat} {s s' : DState} :
    varintAt buf i s = (.ok (r, sz), s') ↔
      s = s' ∧ ∃ n, Vint goDialect buf i n (i + sz) ∧ r = sgn n ∧ n < 2 ^ 64 := by
  rw [varintAt_ok]
  constructor
  · rintro ⟨h1, h2, rfl⟩
    refine ⟨rfl, ?_⟩
    obtain ⟨v, rest, h3, h4, h5, h6, h7⟩ := varintdecode_ok h2
    exact ⟨groups v % 2 ^ 64, ⟨v, h4, h5, ⟨⟨rest, h3.symm⟩, by rw [h6]⟩, rfl⟩,
      by rw [sgn_mod]; exact h7, Nat.mod_lt _ (by decide)⟩
  · rintro ⟨rfl, n, hV, rfl, _⟩
    have hl := hV.le_length
    obtain ⟨v, hv, h10, ⟨⟨rest, hr⟩, hj⟩, hn⟩ := hV
    have : sz = v.length := by omega
    subst this
    refine ⟨by omega, ?_, rfl⟩
    rw [← hr, varintdecode_of_isVarint v rest hv h10]
    simp only [goDialect, Option.some.injEq] at hn
    rw [← hn, sgn_mod]; rfl

theorem varintAt_error {buf : Bytes} {i : Nat} {e : Exn} {s s' : DState} (hi : i ≤ buf.length)
    (h : varintAt buf i s = (.error e, s')) : e = .err (.corrupt .badVarint) ∧ s = s' := by
  unfold varintAt at h
  rw [D.bind_error] at h
  rcases h with h | ⟨t, s1, h1, h2⟩
  · unfold sliceFrom at h; rw [if_pos hi] at h; simp [D.pure_apply] at h
  · rw [sliceFrom_ok] at h1
    obtain ⟨_, rfl, rfl⟩ := h1
    rw [D.lift_error] at h2
    exact ⟨varintdecode_error h2.1, h2.2⟩

end Sereal
