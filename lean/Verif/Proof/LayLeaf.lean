import Verif.Proof.Layout
import Verif.Proof.MemPaths
import Verif.Proof.MemSafe
import Verif.Proof.Shared
/-
Decoding into typed variables in memory: one step, and the items without parts that Marshal writes.
-/
namespace Sereal

theorem M.bind_eq {x : M α} {f : α → M β} {s s' : MSt} {a : α} (h : x s = (.ok a, s')) : (x >>= f) s = f a s' := by
  rw [M.bind_apply, h]

theorem M.lift_eq {x : D α} {s : MSt} {a : α} {d : DState} (h : x s.d = (.ok a, d)) :
    M.lift x s = (.ok a, { s with d := d }) := by
  unfold M.lift; rw [h]

theorem M.failIf_pass {c : Prop} [Decidable c] {e : Exn} {s : MSt} (h : ¬ c) : M.failIf c e s = (.ok (), s) := by
  unfold M.failIf; rw [if_neg h]; rfl

theorem Target.read_var {t : Target} {l : Spot} (h : t.place = .var l) (s : MSt) : t.read s = (.ok (s.mem.get l), s) := by
  unfold Target.read; rw [h]

theorem Target.write_var {t : Target} {l : Spot} (h : t.place = .var l) (hr : t.ro = false) (v : MVal) (s : MSt) :
    t.write v s = (.ok (), { s with mem := s.mem.put l v }) := by
  unfold Target.write; rw [h, hr]; rfl

/-- A variable of type `ty`. -/
def varAt (ty : Ty) (l : Spot) : Target := { ty := ty, place := .var l, ro := false }

theorem flag_bit (b : UInt8) : (b &&& trackFlag = trackFlag) ↔ 128 ≤ b.toNat := by
  revert b; apply u8_forall; set_option maxRecDepth 8000 in decide
theorem unflag_nat (b : UInt8) : (b &&& ~~~ trackFlag).toNat = b.toNat % 128 := by
  revert b; apply u8_forall; set_option maxRecDepth 8000 in decide

section
variable {cfg : DCfg} {tc : TCfg} {B : Bytes}

theorem mem_step {f i : Nat} {b : UInt8} {t : Target} (s : MSt) (hb : B[i]? = some b) (hp : b.toNat % 128 ≠ 0x3f)
    (hty : t.ty ≠ .iface) :
    decodeMem cfg tc B (f + 1) i t s =
      memC cfg tc B (decodeMem cfg tc B f) (classify (b.toNat % 128)) (i + 1) t (b.toNat % 128)
        (if 128 ≤ b.toNat then (trackMem i t s).2 else s) := by
  have hi := (List.getElem?_eq_some_iff.1 hb).1
  have hread : ∃ v, t.read s = (.ok v, s) := by
    unfold Target.read; split <;> exact ⟨_, rfl⟩
  obtain ⟨v, hread⟩ := hread
  have hpad : D.lift (skipPad B i) s.d = (.ok (i, b), s.d) := D.lift_ok.2 ⟨skipPad_ok.2 (TagAt.here' hb hp), rfl⟩
  rw [decodeMem, M.bind_eq (M.failIf_pass (by omega)), M.bind_eq hread, if_neg (fun h => hty h.1), M.bind_eq (M.lift_eq hpad)]
  dsimp only
  rw [← unflag_nat, ← tagMem_eq _ _ _ _ _ _ _ (untracked_lt b)]
  by_cases h : 128 ≤ b.toNat
  · rw [if_pos ((flag_bit b).2 h), if_pos h]
    have : trackMem i t s = (.ok (), (trackMem i t s).2) := rfl
    rw [M.bind_eq this]
  · rw [if_neg (fun h' => h ((flag_bit b).1 h')), if_neg h]

/-- A tag without the track flag. -/
theorem mem_plain {f i j : Nat} {b : UInt8} {w : Bytes} {t : Target} (s : MSt) (h : Span B i (b :: w) j)
    (hb : b.toNat < 128) (hp : b.toNat ≠ 0x3f) (hty : t.ty ≠ .iface) :
    decodeMem cfg tc B (f + 1) i t s =
      memC cfg tc B (decodeMem cfg tc B f) (classify b.toNat) (i + 1) t b.toNat s := by
  have hm : b.toNat % 128 = b.toNat := by omega
  rw [mem_step s h.head.1 (by omega) hty, hm, if_neg (by omega)]

/-- What happens to memory when only the variable at `l` and new ones are written. -/
structure Wrote (m m' : Mem) (l : Spot) : Prop where
  next : m.next ≤ m'.next
  frame : ∀ z, z.base < m.next → Separate z l → m'.get z = m.get z
  maps : ∀ x, x < m.next → m'.maps x = m.maps x

theorem Wrote.put (m : Mem) {l : Spot} (hl : l.Ok) (v : MVal) : Wrote m (m.put l v) l :=
  ⟨Nat.le_refl _, fun _ _ ha => Mem.get_put_apart m hl ha v, fun _ _ => rfl⟩

theorem Wrote.newPut (m : Mem) {l : Spot} (hl : l.Ok) (u v : MVal) : Wrote m ((m.new u).put l v) l :=
  ⟨Nat.le_succ _, fun _ hb ha => by rw [Mem.get_put_apart _ hl ha, Mem.get_new _ _ hb], fun _ _ => rfl⟩

theorem Mem.newMap_get (m : Mem) (l : Spot) : m.newMap.get l = m.get l := rfl

theorem Wrote.mapPut (m : Mem) {l : Spot} (hl : l.Ok) (v : MVal) : Wrote m (m.newMap.put l v) l :=
  ⟨Nat.le_succ _, fun _ _ ha => by rw [Mem.get_put_apart _ hl ha]; rfl, fun x hx => by
    show (if x = m.next then [] else m.maps x) = _
    rw [if_neg (by omega)]⟩

theorem int64_eq {x y : Int64} (h : (2 ^ 64 : Int) ∣ x.toInt - y.toInt) : x = y := by
  have h1 := x.toInt_lt; have h2 := y.toInt_lt
  have h3 := x.le_toInt; have h4 := y.le_toInt
  apply i64_ext
  omega

theorem varint_val {x : Int64} : Int64.ofInt (sgn x.toUInt64.toNat) = x := by
  apply int64_eq
  have h64 : x.toUInt64.toNat < 2 ^ 64 := x.toUInt64.toNat_lt
  have hu := i64_toNat x
  unfold sgn
  rw [int64_ofInt_toInt, BitVec.toInt_eq_toNat_bmod, BitVec.toNat_ofNat, Nat.mod_eq_of_lt h64]
  generalize x.toUInt64.toNat = n at *
  generalize x.toInt = z at *
  simp only [bmod_eq, Nat.reducePow, Int.reducePow] at *
  split at hu <;> split <;> split <;> omega

/-- The integers that Marshal writes. -/
theorem int_leaf {isInt : Bool} {x : Int64} {i j f : Nat} {t : Target} (s : MSt) (h : Span B i (encodeInt isInt x) j)
    (hty : t.ty ≠ .iface) :
    decodeMem cfg tc B (f + 1) i t s = (do t.setInt x; pure j : M Nat) s := by
  have hu := i64_toNat x
  have hu8 : x.toUInt64.toUInt8.toNat = x.toUInt64.toNat % 256 := rfl
  have hlt := x.toUInt64.toNat_lt
  have hx1 := x.toInt_lt
  have hx2 := x.le_toInt
  have varint : Span B i (typeVARINT :: varint x.toUInt64.toNat) j →
      decodeMem cfg tc B (f + 1) i t s = (do t.setInt x; pure j : M Nat) s := by
    intro h
    rw [mem_plain s h (by decide) (by decide) hty]
    obtain ⟨e, -, hj⟩ := varintAt_of ((Vint.of_span h.head.2 hlt).up wrtDialect_le_go) s.d
    show memC _ _ _ _ .varint _ _ _ _ = _
    unfold memC
    dsimp only
    rw [M.bind_eq (M.lift_eq e)]
    dsimp only
    rw [hj, varint_val]
  unfold encodeInt at h
  simp only [Int64.le_iff_toInt_le, Int64.lt_iff_toInt_lt, gt_iff_lt] at h
  have e0 : (0 : Int64).toInt = 0 := rfl
  have e15 : (15 : Int64).toInt = 15 := rfl
  have e16 : (-16 : Int64).toInt = -16 := rfl
  rw [e0, e15, e16] at h
  have single : ∀ {b : UInt8}, Span B i [b] j → b.toNat < 128 → b.toNat ≠ 0x3f → classify b.toNat = .int x.toInt →
      decodeMem cfg tc B (f + 1) i t s = (do t.setInt x; pure j : M Nat) s := by
    intro b h hb hp hc
    rw [mem_plain s h hb hp hty, hc]
    have hj : j = i + 1 := h.2
    have hx : Int64.ofInt x.toInt = x := by
      apply int64_eq
      rw [int64_ofInt_toInt, bmod_eq]
      split <;> omega
    unfold memC
    dsimp only
    rw [hx, hj]
  by_cases h1 : 0 ≤ x.toInt ∧ x.toInt ≤ 15
  · rw [if_pos h1] at h
    rw [if_pos h1.1] at hu
    have ht : (x.toUInt64.toUInt8 &&& 0x0f).toNat = x.toUInt64.toNat := by rw [and0f, hu8]; omega
    exact single h (by omega) (by omega) (by rw [ht, classify_pos (by omega), hu])
  · rw [if_neg h1] at h
    by_cases h2 : -16 ≤ x.toInt ∧ x.toInt < 0 ∧ isInt = true
    · rw [if_pos h2] at h
      rw [if_neg (by omega)] at hu
      have ht : ((0x10 ||| (x.toUInt64.toUInt8 &&& 0x0f)).toNat : Int) = x.toInt + 32 := by
        rw [or10, hu8]; omega
      exact single h (by omega) (by omega) (by
        rw [classify_neg (by omega) (by omega), ht, show x.toInt + 32 - 32 = x.toInt by omega])
    · rw [if_neg h2] at h
      by_cases h3 : 15 < x.toInt
      · rw [if_pos h3] at h
        exact varint h
      · rw [if_neg h3] at h
        have hneg : x.toInt < 0 := by omega
        by_cases h4 : isInt = true
        · rw [if_pos h4] at h
          have hz := zig_neg x hneg
          have hzl := ((x <<< 1) ^^^ (x >>> 63)).toUInt64.toNat_lt
          generalize ((x <<< 1) ^^^ (x >>> 63)).toUInt64.toNat = z at hz hzl h
          rw [mem_plain s h (by decide) (by decide) hty]
          obtain ⟨e, h64, hj⟩ := varintAt_of ((Vint.of_span h.head.2 hzl).up wrtDialect_le_go) s.d
          show memC _ _ _ _ .zigzag _ _ _ _ = _
          unfold memC
          dsimp only
          rw [M.bind_eq (M.lift_eq e)]
          dsimp only
          have : zigzagValue (sgn z) = x := by
            apply i64_ext
            rw [zigzag_toInt h64]; omega
          rw [hj, this]
        · rw [if_neg h4] at h
          exact varint h

theorem conv_int {k : IntK} {x : Int64} (h1 : -2 ^ (k.width - 1) ≤ x.toInt) (h2 : x.toInt < 2 ^ (k.width - 1)) : k.conv x = x :=
  (k.conv_wraps x (z := x.toInt) ⟨0, by omega⟩).int_eq (.inl rfl) h1 h2

theorem conv_uint {k : UintK} {n : UInt64} (h : n.toNat < 2 ^ k.width) : k.conv n.toInt64.toUInt64 = n := by
  refine (k.conv_wraps n.toInt64 (z := (n.toNat : Int)) ?_).uint_eq h
  have h := i64_toNat n.toInt64
  rw [u64_toInt] at h
  have hn := n.toNat_lt
  rw [h]
  split
  · exact ⟨0, by omega⟩
  · exact ⟨-1, by omega⟩

/-- One assignment to the variable. -/
theorem write_leaf {inp : Heap} {ρ : Nat → Option Nat} {ty : Ty} {v : Val} {x : MVal} {f i j : Nat} {l : Spot} {s : MSt} {d : DState}
    (h : decodeMem cfg tc B f i (varAt ty l) s = (do (varAt ty l).write x; pure j : M Nat) { s with d := d })
    (hd : s.d.Eqv d) (hl : l.Ok)
    (hc : Copied tc inp ρ (s.mem.put l x) s.mem.next (s.mem.put l x).next ty v x) :
    ∃ d' m', decodeMem cfg tc B f i (varAt ty l) s = (.ok j, { s with d := d', mem := m' }) ∧ s.d.Eqv d' ∧
      Wrote s.mem m' l ∧ Copied tc inp ρ m' s.mem.next m'.next ty v (m'.get l) := by
  refine ⟨d, s.mem.put l x, ?_, hd, .put _ hl _, ?_⟩
  · rw [h, M.bind_eq (Target.write_var rfl rfl _ _)]; rfl
  · rw [Mem.get_put _ hl]; exact hc

theorem binary_at {i j n : Nat} {x : Bytes} (d : DState) (hi : i ≤ B.length) (hB : B.length ≤ maxSize) (hs : Span B i x j)
    (hn : x.length = n) : ∃ d', decodeBinary B i n d = (.ok (x, j), d') ∧ d.Eqv d' := by
  have h1 := hs.le_length hi
  have h2 := hs.2
  have h3 : n ≤ maxSize := by omega
  have h4 : n < 2 ^ 63 := Nat.lt_of_le_of_lt h3 (by decide)
  have := (decodeBinary_ok (s := d) (s' := { d with alloc := d.alloc + n, peak := max d.peak n }) hi
    (by omega : n < 2 ^ 64)).2 ⟨h3, hs, hn, rfl⟩
  rw [sgn_small h4] at this
  exact ⟨_, this, ⟨rfl, rfl, rfl⟩⟩

theorem varint_at {i j n : Nat} (d : DState) (hs : Span B i (varint n) j) (hn : n ≤ maxSize) :
    varintAt B i d = (.ok ((n : Int), j - i), d) ∧ i + (j - i) = j := by
  have h4 : n < 2 ^ 63 := Nat.lt_of_le_of_lt hn (by decide)
  obtain ⟨e, -, hj⟩ := varintAt_of ((Vint.of_span hs (by omega : n < 2 ^ 64)).up wrtDialect_le_go) d
  rw [sgn_small h4] at e
  exact ⟨e, hj⟩

theorem leaf_decode (hB : B.length ≤ maxSize) (hpc : cfg.perlCompat = false) (hfl : Faithful tc) {inp : Heap}
    {A ρ : Nat → Option Nat} {ty : Ty} {v : Val} {w : Bytes} {i j f : Nat} {l : Spot} (hv : Fit tc inp A ty v)
    (hw : leafBytes v = some w) (hs : Span B i w j) (hf : B.length ≤ i + f) (s : MSt) (hl : l.Ok)
    (hz : s.mem.get l = .zero) (hb : l.base < s.mem.next) :
    ∃ d' m', decodeMem cfg tc B f i (varAt ty l) s = (.ok j, { s with d := d', mem := m' }) ∧ s.d.Eqv d' ∧
      Wrote s.mem m' l ∧ Copied tc inp ρ m' s.mem.next m'.next ty v (m'.get l) := by
  have hw0 : w ≠ [] := by
    rintro rfl
    cases v <;> simp [leafBytes, encodeFloat, encodeDouble, strItem, binItem, encodeInt] at hw
    all_goals (repeat' split at hw) <;> simp at hw
  have hi : i < B.length := by
    cases w with
    | nil => exact absurd rfl hw0
    | cons b w => exact (List.getElem?_eq_some_iff.1 hs.head.1).1
  cases f with
  | zero => omega
  | succ f =>
  have bool : ∀ {b : Bool} {v : Val}, Span B i [if b then typeTRUE else typeFALSE] j →
      (∀ m lo hi, Copied tc inp ρ m lo hi .bool v (.bool b)) →
      ∃ d' m', decodeMem cfg tc B (f + 1) i (varAt .bool l) s = (.ok j, { s with d := d', mem := m' }) ∧ s.d.Eqv d' ∧
        Wrote s.mem m' l ∧ Copied tc inp ρ m' s.mem.next m'.next .bool v (m'.get l) := by
    intro b v hs hc
    refine write_leaf (x := .bool b) ?_ (.refl _) hl (hc _ _ _)
    have hj : j = i + 1 := hs.2
    subst hj
    cases b <;> (rw [mem_plain s hs (by decide) (by decide) (by simp [varAt])]; rfl)
  have f32 : ∀ {u : UInt32} {v : Val}, ¬ NaN32 u → Span B i (encodeFloat u) j →
      (∀ m lo hi, Copied tc inp ρ m lo hi .f32 v (.f32 u)) →
      ∃ d' m', decodeMem cfg tc B (f + 1) i (varAt .f32 l) s = (.ok j, { s with d := d', mem := m' }) ∧ s.d.Eqv d' ∧
        Wrote s.mem m' l ∧ Copied tc inp ρ m' s.mem.next m'.next .f32 v (m'.get l) := by
    intro u v hn hs hc
    refine write_leaf (x := .f32 u) ?_ (.refl _) hl (hc _ _ _)
    unfold encodeFloat at hs
    rw [mem_plain s hs (by decide) (by decide) (by simp [varAt])]
    show memC _ _ _ _ .float _ _ _ _ = _
    unfold memC
    dsimp only
    rw [M.bind_eq (M.lift_eq (decodeFloat_of s.d hs.head.2 rfl)), u32_le]
    show ((do (varAt .f32 l).write (.f32 (tc.narrow (tc.widen u))); pure j) : M Nat) s = _
    rw [hfl u hn]
  have f64 : ∀ {u : UInt64} {v : Val}, Span B i (encodeDouble u) j →
      (∀ m lo hi, Copied tc inp ρ m lo hi .f64 v (.f64 u)) →
      ∃ d' m', decodeMem cfg tc B (f + 1) i (varAt .f64 l) s = (.ok j, { s with d := d', mem := m' }) ∧ s.d.Eqv d' ∧
        Wrote s.mem m' l ∧ Copied tc inp ρ m' s.mem.next m'.next .f64 v (m'.get l) := by
    intro u v hs hc
    refine write_leaf (x := .f64 u) ?_ (.refl _) hl (hc _ _ _)
    unfold encodeDouble at hs
    rw [mem_plain s hs (by decide) (by decide) (by simp [varAt])]
    show memC _ _ _ _ .double _ _ _ _ = _
    unfold memC
    dsimp only
    rw [M.bind_eq (M.lift_eq (decodeDouble_of s.d hs.head.2 rfl)), u64_le]
    rfl
  have str : ∀ {x : Bytes} {v : Val}, Span B i (strItem x) j →
      (∀ m lo hi, Copied tc inp ρ m lo hi .str v (.str x)) →
      ∃ d' m', decodeMem cfg tc B (f + 1) i (varAt .str l) s = (.ok j, { s with d := d', mem := m' }) ∧ s.d.Eqv d' ∧
        Wrote s.mem m' l ∧ Copied tc inp ρ m' s.mem.next m'.next .str v (m'.get l) := by
    intro x v hs hc
    unfold strItem at hs
    have h0 := hs.le_length (by omega)
    have hl0 := hs.2
    simp only [List.cons_append, List.length_cons, List.length_append] at hl0
    obtain ⟨h1, h2⟩ := Span.split hs.head.2
    have h3 := h1.le_length (by omega)
    obtain ⟨e, hj⟩ := varint_at s.d h1 (by omega)
    obtain ⟨d', e2, hd⟩ := binary_at s.d h3 hB h2 rfl
    refine write_leaf (x := .str x) (d := d') ?_ hd hl (hc _ _ _)
    rw [mem_plain s hs (by decide) (by decide) (by simp [varAt])]
    show memC _ _ _ _ .strUtf8 _ _ _ _ = _
    unfold memC
    dsimp only
    rw [M.bind_eq (M.lift_eq e)]
    dsimp only
    rw [hj, M.bind_eq (M.lift_eq e2)]
    rfl
  cases hv with
  | bool => cases hw; exact bool hs fun _ _ _ => .bool
  | nbool => cases hw; exact bool hs fun _ _ _ => .nbool
  | @int k x h1 h2 =>
    cases hw
    refine write_leaf (x := .int x) (d := s.d) ?_ (.refl _) hl .int
    rw [int_leaf s hs (by simp [varAt])]
    show ((do (varAt (.int k) l).write (.int (k.conv x)); pure j) : M Nat) s = _
    rw [conv_int h1 h2]
  | @nint k x h1 h2 =>
    cases hw
    refine write_leaf (x := .int x) (d := s.d) ?_ (.refl _) hl .nint
    rw [int_leaf s hs (by simp [varAt])]
    show ((do (varAt (.int k) l).write (.int (k.conv x)); pure j) : M Nat) s = _
    rw [conv_int h1 h2]
  | @uint k n h1 =>
    cases hw
    refine write_leaf (x := .uint n) (d := s.d) ?_ (.refl _) hl .uint
    rw [int_leaf s hs (by simp [varAt])]
    show ((do (varAt (.uint k) l).write (.uint (k.conv n.toInt64.toUInt64)); pure j) : M Nat) s = _
    rw [conv_uint h1]
  | f32 hn => cases hw; exact f32 hn hs fun _ _ _ => .f32
  | nf32 hn => cases hw; exact f32 hn hs fun _ _ _ => .nf32
  | f64 => cases hw; exact f64 hs fun _ _ _ => .f64
  | nf64 => cases hw; exact f64 hs fun _ _ _ => .nf64
  | str => cases hw; exact str hs fun _ _ _ => .str
  | nstr => cases hw; exact str hs fun _ _ _ => .nstr
  | @bytes x =>
    cases hw
    have key : ∀ d', s.d.Eqv d' → decodeMem cfg tc B (f + 1) i (varAt (.slice (.uint .uint8)) l) s =
        (do (varAt (.slice (.uint .uint8)) l).setBinary x; pure j : M Nat) { s with d := d' } →
        ∃ d' m', decodeMem cfg tc B (f + 1) i (varAt (.slice (.uint .uint8)) l) s =
          (.ok j, { s with d := d', mem := m' }) ∧ s.d.Eqv d' ∧ Wrote s.mem m' l ∧
          Copied tc inp ρ m' s.mem.next m'.next (.slice (.uint .uint8)) (.bin x) (m'.get l) := by
      intro d' hd he
      refine ⟨d', (s.mem.new (.multi (x.map .ofByte))).put l (.slice ⟨s.mem.next, []⟩ 0 x.length x.length), ?_, hd,
        .newPut _ hl _ _, ?_⟩
      · rw [he]
        have : (varAt (.slice (.uint .uint8)) l).setBinary x { s with d := d' } =
            (.ok (), { s with d := d', mem := ((s.mem.new (.multi (x.map .ofByte))).put l (.slice ⟨s.mem.next, []⟩ 0 x.length x.length)) }) := by
          show (do
            match ← (varAt (.slice (.uint .uint8)) l).read with
            | .slice l off len cap =>
              M.failIf ((varAt (.slice (.uint .uint8)) l).ro = true) (.panic "reflect: using unexported field")
              fun st => (.ok (), { st with mem := st.mem.put l (.multi (overlayMem ((st.mem.get l).parts cap) off len x)) })
            | _ => (varAt (.slice (.uint .uint8)) l).makeSlice (x.map .ofByte) : M Unit) _ = _
          rw [M.bind_eq (Target.read_var rfl _)]
          dsimp only
          rw [hz]
          dsimp only
          unfold Target.makeSlice
          rw [M.bind_eq (show newVar (.multi (x.map .ofByte)) { s with d := d' } = (.ok ⟨s.mem.next, []⟩, _) from rfl),
            Target.write_var rfl rfl]
          simp
        rw [M.bind_eq this]
        rfl
      · rw [Mem.get_put _ hl]
        refine .bytes (Nat.le_refl _) (Nat.lt_succ_self _) (by omega) fun n b hnb => ?_
        have hne : ∀ (n : Nat), Separate (Spot.sub ⟨s.mem.next, []⟩ n x.length) l := fun n => .base (by
          show s.mem.next ≠ l.base; omega)
        rw [Mem.get_put_apart _ hl (hne _), Mem.get_sub, Mem.get_new_here]
        have hlt := (List.getElem?_eq_some_iff.1 hnb).1
        rw [MVal.part_multi (by omega), List.getD_eq_getElem?_getD, List.getElem?_map, Nat.zero_add, hnb]
        rfl
    have h0 := hs.le_length (by omega)
    have hl0 := hs.2
    unfold binItem at hs hl0
    by_cases hlen : x.length < 32
    · rw [if_pos hlen] at hs hl0
      have ht := binItem_tag hlen
      have h1 := hs.head.2
      obtain ⟨d', e2, hd⟩ := binary_at s.d (by omega) hB h1 rfl
      refine key d' hd ?_
      rw [mem_plain s hs (by omega) (by omega) (by simp [varAt]), ht, classify_shortN hlen]
      unfold memC
      dsimp only
      rw [M.bind_eq (M.lift_eq e2)]
    · rw [if_neg hlen] at hs hl0
      simp only [List.cons_append, List.length_cons, List.length_append] at hl0
      obtain ⟨h1, h2⟩ := Span.split hs.head.2
      have h3 := h1.le_length (by omega)
      obtain ⟨e, hj⟩ := varint_at s.d h1 (by omega)
      obtain ⟨d', e2, hd⟩ := binary_at s.d h3 hB h2 rfl
      refine key d' hd ?_
      rw [mem_plain s hs (by decide) (by decide) (by simp [varAt])]
      show memC _ _ _ _ .binary _ _ _ _ = _
      unfold memC
      dsimp only
      rw [M.bind_eq (M.lift_eq e)]
      dsimp only
      rw [hj, M.bind_eq (M.lift_eq e2)]
  | slice h => rcases h with rfl | rfl <;> cases hw
  | arr => cases hw
  | map h => rcases h with rfl | rfl <;> cases hw
  | strct => cases hw
  | ptr => cases hw
  | @nilptr id =>
    cases hw
    have hi1 : i + 1 < B.length := (List.getElem?_eq_some_iff.1 hs.head.2.head.1).1
    have hj : j = i + 2 := hs.2
    cases f with
    | zero => omega
    | succ f =>
    refine write_leaf (x := .zero) ?_ (.refl _) hl .nilptr
    rw [mem_plain s hs (by decide) (by decide) (by simp [varAt])]
    show decodeMem cfg tc B (f + 1) (i + 1) _ s = _
    rw [mem_plain s hs.head.2 (by decide) (by decide) (by simp [varAt])]
    show (do undefMem cfg false (varAt (.ptr (.strct id)) l); pure (i + 1 + 1) : M Nat) s = _
    have : undefMem cfg false (varAt (.ptr (.strct id)) l) = (varAt (.ptr (.strct id)) l).write .zero := by
      unfold undefMem
      rw [if_neg (by simp), if_neg (by simp [hpc])]
      rfl
    rw [this, hj]

end
end Sereal
