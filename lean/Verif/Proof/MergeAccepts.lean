import Verif.Proof.MergeG
import Verif.Spec.Tokens
/-
`Append` accepts documents that are rows of tokens.
-/
namespace Sereal

theorem Tok.lt {D : Bytes} {vs : List Nat} {i k : Nat} {b : UInt8} (h : Tok D vs i b k) (hi : i < D.length) :
    i < k ∧ k ≤ D.length := by
  have vl : ∀ {i n k}, Vint wrtDialect D i n k → i < k ∧ k ≤ D.length := fun h => ⟨h.lt, h.le_length⟩
  have nm : ∀ {i k}, Name D i k → i < k ∧ k ≤ D.length := fun ⟨_, _, _, _, _, _, hl⟩ => hl.lt
  cases h with
  | single => omega
  | number _ h => have := vl h; omega
  | float _ h => omega
  | double _ h => omega
  | long _ h _ h2 => have := h.lt; omega
  | short _ h => omega
  | box _ h => have := vl h; omega
  | offset _ h => have := vl h; omega
  | object _ h => have := nm h; omega
  | regexp _ h h2 => have := nm h; have := nm h2; omega

theorem Toks.trans {D : Bytes} {vs vs' vs'' : List Nat} {i j k : Nat} (h : Toks D vs i vs' j)
    (h' : Toks D vs' j vs'' k) : Toks D vs i vs'' k := by
  induction h with
  | nil => exact h'
  | cons hb ht _ ih => exact .cons hb ht (ih h')

theorem Toks.one {D : Bytes} {vs : List Nat} {i k : Nat} {b : UInt8} (hb : D[i]? = some b) (h : Tok D vs i b k) :
    Toks D vs i (i :: vs) k := .cons hb h .nil

theorem Toks.le {D : Bytes} {vs vs' : List Nat} {i j : Nat} (h : Toks D vs i vs' j) : i ≤ j := by
  induction h with
  | nil => exact Nat.le_refl _
  | cons hb ht _ ih => have := ht.lt (List.getElem?_eq_some_iff.1 hb).1; omega

theorem Toks.places {D : Bytes} {vs vs' : List Nat} {i j : Nat} (h : Toks D vs i vs' j) :
    (∀ x ∈ vs', x ∈ vs ∨ i ≤ x) ∧ (∀ x ∈ vs, x ∈ vs') := by
  induction h with
  | nil => exact ⟨fun x hx => .inl hx, fun x hx => hx⟩
  | @cons vs i b k vs' j hb ht _ ih =>
    have := ht.lt (List.getElem?_eq_some_iff.1 hb).1
    refine ⟨fun x hx => ?_, fun x hx => ih.2 x (by simp [hx])⟩
    rcases ih.1 x hx with h | h
    · rcases List.mem_cons.1 h with rfl | h
      · exact .inr (Nat.le_refl _)
      · exact .inl h
    · exact .inr (by omega)

/-! ### The first pass -/

/-- The first pass gets from `i` to `j`. -/
def Scan (dbuf : Bytes) (i : Nat) (keys : List Nat) (j : Nat) (keys' : List Nat) : Prop :=
  ∃ n, i + n ≤ j ∧ ∀ fuel, buildTrack dbuf (fuel + n) i keys = buildTrack dbuf fuel j keys'

theorem Scan.refl (dbuf : Bytes) (i : Nat) (keys : List Nat) : Scan dbuf i keys i keys := ⟨0, by omega, fun _ => rfl⟩

theorem Scan.trans {dbuf : Bytes} {i j k : Nat} {ks ks' ks'' : List Nat} (h : Scan dbuf i ks j ks')
    (h' : Scan dbuf j ks' k ks'') : Scan dbuf i ks k ks'' := by
  obtain ⟨n, h1, h2⟩ := h
  obtain ⟨m, h3, h4⟩ := h'
  exact ⟨m + n, by omega, fun fuel => by rw [← Nat.add_assoc, h2, h4]⟩

/-- The keys with one more. -/
def addKey : Option Nat → List Nat → List Nat
  | some o, ks => insertIdx o ks
  | none, ks => ks

theorem Scan.step {dbuf : Bytes} {i j : Nat} {ks : List Nat} {b : UInt8} {o : Option Nat} (hb : dbuf[i]? = some b)
    (h : trackStep dbuf i (b &&& ~~~ trackFlag) = .ok (o, j)) (hj : i < j) :
    Scan dbuf i ks j (addKey o (if b &&& trackFlag = trackFlag then insertIdx (i + 1) ks else ks)) := by
  refine ⟨1, by omega, fun fuel => ?_⟩
  rw [buildTrack, hb]
  dsimp only
  rw [h]
  cases o <;> rfl

theorem Scan.done {dbuf : Bytes} {ks ks' : List Nat} (h : Scan dbuf 0 ks dbuf.length ks') :
    buildTrack dbuf (dbuf.length + 1) 0 ks = .ok ks' := by
  obtain ⟨n, h1, h2⟩ := h
  have := h2 (dbuf.length + 1 - n)
  rw [show dbuf.length + 1 - n + n = dbuf.length + 1 by omega] at this
  rw [this]
  cases h3 : dbuf.length + 1 - n with
  | zero => rw [buildTrack, if_neg (by omega)]
  | succ m => rw [buildTrack, List.getElem?_eq_none (by omega)]

theorem insertIdx_mem (x y : Nat) (l : List Nat) : x ∈ insertIdx y l ↔ x = y ∨ x ∈ l := by
  induction l with
  | nil => simp [insertIdx]
  | cons z zs ih =>
    rw [insertIdx]
    split
    · simp
    · split
      · next h => subst h; simp
      · simp [ih]; constructor
        · rintro (h | h | h) <;> simp [h]
        · rintro (h | h | h) <;> simp [h]

theorem insertIdx_sorted (y : Nat) (l : List Nat) (h : l.Pairwise (· < ·)) : (insertIdx y l).Pairwise (· < ·) := by
  induction l with
  | nil => simp [insertIdx]
  | cons z zs ih =>
    rw [List.pairwise_cons] at h
    rw [insertIdx]
    split
    · next hlt =>
      rw [List.pairwise_cons, List.pairwise_cons]
      refine ⟨fun a ha => ?_, h⟩
      rcases List.mem_cons.1 ha with rfl | ha
      · exact hlt
      · exact Nat.lt_trans hlt (h.1 a ha)
    · split
      · rw [List.pairwise_cons]; exact h
      · rw [List.pairwise_cons]
        refine ⟨fun a ha => ?_, ih h.2⟩
        rcases (insertIdx_mem _ _ _).1 ha with rfl | ha
        · omega
        · exact h.1 a ha

/-- `trackStep` as a match on the class of the tag. -/
def trackC (buf : Bytes) (idx : Nat) : TagC → Res (Option Nat × Nat)
  | .varint | .zigzag | .array | .hash => do
    let (_, sz) ← varintdecode (buf.drop (idx + 1))
    .ok (none, idx + (sz + 1))
  | .float => .ok (none, idx + 5)
  | .double => .ok (none, idx + 9)
  | .binary | .strUtf8 => do
    let (ln, sz) ← varintdecode (buf.drop (idx + 1))
    if ln < 0 ∨ ln > maxUint32 then .error (.err (.msg "bad size for string"))
    else
      let idx := idx + (sz + ln.toNat + 1)
      if idx > buf.length then .error (.err (.msg "truncated document")) else .ok (none, idx)
  | .copy | .refp | .alias | .objectv | .freezev => do
    let (offset, sz) ← varintdecode (buf.drop (idx + 1))
    if offset < 0 ∨ offset ≥ idx then .error (.err (.msg "tag refers to invalid offset"))
    else .ok (some offset.toNat, idx + (sz + 1))
  | .short n => .ok (none, idx + (1 + n))
  | .other => .error .fuel                     -- not used
  | _ => .ok (none, idx + 1)

theorem trackStep_eq (buf : Bytes) (idx : Nat) (b : UInt8) (h : classify (b.toNat % 128) ≠ .other) :
    trackStep buf idx (b &&& ~~~ trackFlag) = trackC buf idx (classify (b.toNat % 128)) := by
  have hn := and_not_track b
  generalize b &&& ~~~ trackFlag = tag at hn
  rw [← hn] at h ⊢
  have hlt : tag.toNat < 128 := by omega
  clear hn
  rcases tag_cases tag hlt with h0 | ⟨h1, h2⟩ | ⟨h1, h2⟩ | ⟨h1, h2⟩ | ⟨h1, h2⟩
  · obtain ⟨i, hc, hi⟩ := decodeInt_eq tag h0
    rw [hc]
    have : oneByteTag tag = true := by unfold oneByteTag; simp [h0]
    unfold trackStep
    rw [if_pos this]
    rfl
  · have : ∃ n, n < 32 ∧ tag = UInt8.ofNat (32 + n) := ⟨tag.toNat - 32, by omega, by
      apply UInt8.toNat.inj; simp; omega⟩
    obtain ⟨n, hn, rfl⟩ := this
    clear h1 h2 hlt
    match n, hn with
    | 0, _ => rfl
    | 1, _ => rfl
    | 2, _ => rfl
    | 3, _ => rfl
    | 4, _ => exact absurd rfl h
    | 5, _ => rfl
    | 6, _ => rfl
    | 7, _ => rfl
    | 8, _ => rfl
    | 9, _ => rfl
    | 10, _ => rfl
    | 11, _ => rfl
    | 12, _ => rfl
    | 13, _ => rfl
    | 14, _ => rfl
    | 15, _ => rfl
    | 16, _ => rfl
    | 17, _ => rfl
    | 18, _ => rfl
    | 19, _ => rfl
    | 20, _ => exact absurd rfl h
    | 21, _ => exact absurd rfl h
    | 22, _ => exact absurd rfl h
    | 23, _ => exact absurd rfl h
    | 24, _ => exact absurd rfl h
    | 25, _ => rfl
    | 26, _ => rfl
    | 27, _ => rfl
    | 28, _ => exact absurd rfl h
    | 29, _ => exact absurd rfl h
    | 30, _ => exact absurd rfl h
    | 31, _ => rfl
    | n + 32, hn => omega
  · have : ∃ n, n < 16 ∧ tag = UInt8.ofNat (64 + n) := ⟨tag.toNat - 64, by omega, by
      apply UInt8.toNat.inj; simp; omega⟩
    obtain ⟨n, hn, rfl⟩ := this
    clear h1 h2 hlt
    match n, hn with
    | 0, _ | 1, _ | 2, _ | 3, _ | 4, _ | 5, _ | 6, _ | 7, _ | 8, _ | 9, _ | 10, _ | 11, _ | 12, _ | 13, _
    | 14, _ | 15, _ => rfl
    | n + 16, hn => omega
  · have : ∃ n, n < 16 ∧ tag = UInt8.ofNat (80 + n) := ⟨tag.toNat - 80, by omega, by
      apply UInt8.toNat.inj; simp; omega⟩
    obtain ⟨n, hn, rfl⟩ := this
    clear h1 h2 hlt
    match n, hn with
    | 0, _ | 1, _ | 2, _ | 3, _ | 4, _ | 5, _ | 6, _ | 7, _ | 8, _ | 9, _ | 10, _ | 11, _ | 12, _ | 13, _
    | 14, _ | 15, _ => rfl
    | n + 16, hn => omega
  · have : ∃ n, n < 32 ∧ tag = UInt8.ofNat (96 + n) := ⟨tag.toNat - 96, by omega, by
      apply UInt8.toNat.inj; simp; omega⟩
    obtain ⟨n, hn, rfl⟩ := this
    clear h1 h2 hlt
    match n, hn with
    | 0, _ | 1, _ | 2, _ | 3, _ | 4, _ | 5, _ | 6, _ | 7, _ | 8, _ | 9, _ | 10, _ | 11, _ | 12, _ | 13, _
    | 14, _ | 15, _ | 16, _ | 17, _ | 18, _ | 19, _ | 20, _ | 21, _ | 22, _ | 23, _ | 24, _ | 25, _ | 26, _
    | 27, _ | 28, _ | 29, _ | 30, _ | 31, _ => rfl
    | n + 32, hn => omega

/-- A string in the first pass. -/
theorem lit_track {y : UInt8} {dbuf : Bytes} {idx k : Nat} {b : UInt8} {x : Bytes} (hb : dbuf[idx]? = some b)
    (hp : b.toNat % 128 ≠ 0x3f) (h : Lit wrtDialect (y :: dbuf) (idx + 1) x k) :
    trackStep dbuf idx (b &&& ~~~ trackFlag) = .ok (none, k - 1) := by
  have hlt := h.lt
  have here : ∀ {k' b'}, TagAt (y :: dbuf) (idx + 1) k' b' → k' = idx + 1 ∧ b' = b := fun h' =>
    h'.unique (.here' (by simpa using hb) hp)
  cases h with
  | @long k' b' n j _ _ ht hc hv hn hs hl =>
    obtain ⟨rfl, rfl⟩ := here ht
    have hj := hv.lt
    have hse := hs.2
    rw [trackStep_eq _ _ _ (by rcases hc with hc | hc <;> rw [hc] <;> simp)]
    have hvd := vint_small (d := wrtDialect) ⟨rfl, rfl⟩ hv (by simp [maxSize] at hn; omega)
    change varintdecode (dbuf.drop (idx + 1)) = _ at hvd
    have : trackC dbuf idx .binary = .ok (none, k - 1) := by
      unfold trackC
      rw [hvd]
      simp only [bind, Except.bind]
      have e : idx + (j - (idx + 1 + 1) + ((n : Int)).toNat + 1) = k - 1 := by omega
      rw [e, if_neg (by simp only [maxSize, maxUint32] at *; omega), if_neg (by simp at hlt; omega)]
    rcases hc with hc | hc <;> rw [hc] <;> exact this
  | @short k' b' n _ _ ht hc hs hl =>
    obtain ⟨rfl, rfl⟩ := here ht
    have hse := hs.2
    rw [trackStep_eq _ _ _ (by rw [hc]; simp), hc]
    show Except.ok (none, idx + (1 + n)) = _
    rw [show idx + (1 + n) = k - 1 by omega]

theorem untracked {b : UInt8} (h : b.toNat < 128) : ¬ (b &&& trackFlag = trackFlag) := by
  revert b; apply u8_forall; set_option maxRecDepth 8000 in decide

/-- A name in the first pass. -/
theorem Name.scan {y : UInt8} {dbuf : Bytes} {i k : Nat} (h : Name (y :: dbuf) i k) (hi : 1 ≤ i) (ks : List Nat) :
    Scan dbuf (i - 1) ks (k - 1) ks := by
  obtain ⟨b, x, hb, h1, h2, -, hl⟩ := h
  obtain ⟨idx, rfl⟩ : ∃ idx, i = idx + 1 := ⟨i - 1, by omega⟩
  have hlt := hl.lt
  have := Scan.step (ks := ks) (by simpa using hb) (lit_track (by simpa using hb) (by rw [Nat.mod_eq_of_lt h1]; exact h2) hl)
    (by omega)
  rw [if_neg (untracked h1)] at this
  exact this

/-- A token in the first pass. -/
theorem Tok.scan {y : UInt8} {dbuf : Bytes} {vs : List Nat} {idx k : Nat} {b : UInt8}
    (h : Tok (y :: dbuf) vs (idx + 1) b k) (hb : dbuf[idx]? = some b) (hlen : dbuf.length < 2 ^ 62) (ks : List Nat) :
    ∃ o, Scan dbuf idx ks (k - 1) (addKey o (if b &&& trackFlag = trackFlag then insertIdx (idx + 1) ks else ks)) ∧
      (∀ x, o = some x → x ∈ vs) ∧
      (∀ x k', (classify (b.toNat % 128)).points = true → Vint wrtDialect (y :: dbuf) (idx + 2) x k' → o = some x) := by
  have hidx := (List.getElem?_eq_some_iff.1 hb).1
  have hlt := h.lt (by simp; omega)
  have hd : Mergeable wrtDialect := ⟨rfl, rfl⟩
  have plain : trackStep dbuf idx (b &&& ~~~ trackFlag) = .ok (none, k - 1) →
      (classify (b.toNat % 128)).points = false → ∃ o, Scan dbuf idx ks (k - 1)
      (addKey o (if b &&& trackFlag = trackFlag then insertIdx (idx + 1) ks else ks)) ∧
      (∀ x, o = some x → x ∈ vs) ∧
      (∀ x k', (classify (b.toNat % 128)).points = true → Vint wrtDialect (y :: dbuf) (idx + 2) x k' → o = some x) :=
    fun h1 h2 => ⟨none, Scan.step hb h1 (by omega), by simp, fun x k' h3 => by rw [h2] at h3; cases h3⟩
  cases h with
  | single hc =>
    refine plain ?_ ?_
    · rw [trackStep_eq _ _ _ (by intro e; rw [e] at hc; cases hc)]
      cases hcl : classify (b.toNat % 128) <;> rw [hcl] at hc <;> first | rfl | cases hc
    · cases hcl : classify (b.toNat % 128) <;> rw [hcl] at hc <;> first | rfl | cases hc
  | @number n _ hc hv =>
    have hvd := (vint_dec hd hv).1
    change varintdecode (dbuf.drop (idx + 1)) = _ at hvd
    have hj := hv.lt
    have e : idx + (k - (idx + 1 + 1) + 1) = k - 1 := by omega
    rcases hc with hc | hc
    · refine plain ?_ (by rw [hc]; rfl)
      rw [trackStep_eq _ _ _ (by rw [hc]; simp), hc]
      unfold trackC
      rw [hvd]
      simp only [bind, Except.bind]
      rw [e]
    · refine plain ?_ (by rw [hc]; rfl)
      rw [trackStep_eq _ _ _ (by rw [hc]; simp), hc]
      unfold trackC
      rw [hvd]
      simp only [bind, Except.bind]
      rw [e]
  | float hc =>
    refine plain ?_ (by rw [hc]; rfl)
    rw [trackStep_eq _ _ _ (by rw [hc]; simp), hc]
    rfl
  | double hc =>
    refine plain ?_ (by rw [hc]; rfl)
    rw [trackStep_eq _ _ _ (by rw [hc]; simp), hc]
    rfl
  | @long n j hc hv hn hle =>
    have hj := hv.lt
    have hvd := vint_small hd hv (by simp [maxSize] at hn; omega)
    change varintdecode (dbuf.drop (idx + 1)) = _ at hvd
    have : trackC dbuf idx .binary = .ok (none, j + n - 1) := by
      unfold trackC
      rw [hvd]
      simp only [bind, Except.bind]
      have e : idx + (j - (idx + 1 + 1) + ((n : Int)).toNat + 1) = j + n - 1 := by omega
      rw [e, if_neg (by simp only [maxSize, maxUint32] at *; omega), if_neg (by simp at hlt; omega)]
    rcases hc with hc | hc
    · exact plain (by rw [trackStep_eq _ _ _ (by rw [hc]; simp), hc]; exact this) (by rw [hc]; rfl)
    · exact plain (by rw [trackStep_eq _ _ _ (by rw [hc]; simp), hc]; exact this) (by rw [hc]; rfl)
  | @short n hc hle =>
    refine plain ?_ (by rw [hc]; rfl)
    rw [trackStep_eq _ _ _ (by rw [hc]; simp), hc]
    show Except.ok (none, idx + (1 + n)) = _
    rw [show idx + (1 + n) = idx + 1 + 1 + n - 1 by omega]
  | @box n _ hc hv hn =>
    have hvd := (vint_dec hd hv).1
    change varintdecode (dbuf.drop (idx + 1)) = _ at hvd
    have hj := hv.lt
    have e : idx + (k - (idx + 1 + 1) + 1) = k - 1 := by omega
    rcases hc with hc | hc
    · refine plain ?_ (by rw [hc]; rfl)
      rw [trackStep_eq _ _ _ (by rw [hc]; simp), hc]
      unfold trackC
      rw [hvd]
      simp only [bind, Except.bind]
      rw [e]
    · refine plain ?_ (by rw [hc]; rfl)
      rw [trackStep_eq _ _ _ (by rw [hc]; simp), hc]
      unfold trackC
      rw [hvd]
      simp only [bind, Except.bind]
      rw [e]
  | @offset o _ hc hv ho hoi =>
    have hj := hv.lt
    have hvd := vint_small hd hv (by omega)
    change varintdecode (dbuf.drop (idx + 1)) = _ at hvd
    have : trackC dbuf idx .copy = .ok (some o, k - 1) := by
      unfold trackC
      rw [hvd]
      simp only [bind, Except.bind]
      rw [if_neg (by omega), show idx + (k - (idx + 1 + 1) + 1) = k - 1 by omega]
      rfl
    refine ⟨some o, Scan.step hb ?_ (by omega), ?_, ?_⟩
    · rw [trackStep_eq _ _ _ (by intro e; rw [e] at hc; cases hc), ← this]
      cases hcl : classify (b.toNat % 128) <;> rw [hcl] at hc <;> first | rfl | cases hc
    · intro x hx; cases hx; exact ho
    · intro x k' _ hv'; rw [(hv.unique hv').1]
  | object hc hn =>
    refine ⟨none, ?_, by simp, ?_⟩
    · have h1 : trackStep dbuf idx (b &&& ~~~ trackFlag) = .ok (none, idx + 1) := by
        rw [trackStep_eq _ _ _ (by rcases hc with hc | hc <;> rw [hc] <;> simp)]
        rcases hc with hc | hc <;> rw [hc] <;> rfl
      exact (Scan.step hb h1 (by omega)).trans (hn.scan (by omega) _)
    · intro x k' h3; rcases hc with hc | hc <;> rw [hc] at h3 <;> cases h3
  | @regexp j _ hc hn hn' =>
    refine ⟨none, ?_, by simp, ?_⟩
    · have h1 : trackStep dbuf idx (b &&& ~~~ trackFlag) = .ok (none, idx + 1) := by
        rw [trackStep_eq _ _ _ (by rw [hc]; simp)]
        rw [hc]; rfl
      have hl : 1 ≤ j := by obtain ⟨_, _, _, _, _, _, hl⟩ := hn; exact Nat.le_trans (by omega) hl.lt.1
      exact ((Scan.step hb h1 (by omega)).trans (hn.scan (by omega) _)).trans (hn'.scan hl _)
    · intro x k' h3; rw [hc] at h3; cases h3

/-! ### The second pass -/

/-- Offsets in a table are at most `n`. -/
def Upto (n : Nat) (tbl : List (Bytes × Nat)) : Prop := ∀ k o, mapLookup k tbl = some o → o ≤ n

theorem Upto.mono {n m : Nat} {tbl : List (Bytes × Nat)} (h : Upto n tbl) (hn : n ≤ m) : Upto m tbl :=
  fun k o hk => Nat.le_trans (h k o hk) hn

theorem Upto.cons {n : Nat} {tbl : List (Bytes × Nat)} (h : Upto n tbl) {k : Bytes} {o : Nat} (ho : o ≤ n) :
    Upto n ((k, o) :: tbl) := by
  intro k' o' hk
  rw [mapLookup] at hk
  split at hk
  · cases hk; exact ho
  · exact h k' o' hk

/-- What is needed of the state. -/
structure LBound (s : LState) : Prop where
  len : 5 ≤ s.mbuf.length
  str : Upto s.mbuf.length s.strTable
  obj : Upto s.mbuf.length s.objTable
  trk : ∀ o p, idxLookup o s.trackTable = some p → p ≤ s.mbuf.length

structure MBound (s : LState) (m : Moved) : Prop where
  idx : m.idx ≤ s.mbuf.length + m.out.length
  str : Upto (s.mbuf.length + m.out.length) m.strTable
  obj : Upto (s.mbuf.length + m.out.length) m.objTable

theorem LBound.copy {s : LState} (h : LBound s) (out : Bytes) (adv : Nat) (push : Option Nat) (fake : Bool) :
    MBound s (Moved.copy s out adv push fake) :=
  ⟨by show s.mbuf.length - 5 ≤ _; omega, h.str.mono (Nat.le_add_right _ _), h.obj.mono (Nat.le_add_right _ _)⟩

/-- A name, read by `readString`. -/
theorem Name.read {y : UInt8} {dbuf : Bytes} {i k : Nat} (h : Name (y :: dbuf) (i + 1) k) :
    ∃ off str, readString (dbuf.drop i) = .ok (off, str) ∧ i + 1 + (off + str.length) = k := by
  obtain ⟨b, x, hb, h1, h2, hne, hl⟩ := h
  have hlt := hl.lt
  have hb' : dbuf[i]? = some b := by simpa using hb
  have hmod : b.toNat % 128 = b.toNat := Nat.mod_eq_of_lt h1
  have here : ∀ {k' b'}, TagAt (y :: dbuf) (i + 1) k' b' → k' = i + 1 ∧ b' = b := fun h' =>
    h'.unique (.here' hb (by rw [hmod]; exact h2))
  have h0 : indexOf (dbuf.drop i) 0 = .ok b := by
    unfold indexOf
    rw [List.getElem?_drop, Nat.add_zero, hb']
  have ht := readString_tag b
  unfold readString
  rw [h0]
  have fin : ∀ (n : Nat) (ln : Int) (sz : Nat), (ln = n) → n ≤ maxSize → i + 1 + (sz + 1 + n) = k →
      ∃ off str,
      (if ln < 0 ∨ ln > maxUint32 then Except.error (Exn.err (.msg "bad size for string"))
        else if sz + 1 + ln.toNat > (dbuf.drop i).length then .error (.err (.msg "truncated document"))
        else .ok (sz + 1, ((dbuf.drop i).drop (sz + 1)).take ln.toNat) : Res (Nat × Bytes)) = .ok (off, str) ∧
      i + 1 + (off + str.length) = k := by
    rintro n ln sz rfl hn hk
    have hl2 := hlt.2
    simp only [List.length_cons] at hl2
    rw [if_neg (by simp only [maxSize, maxUint32] at *; omega),
      if_neg (by simp only [List.length_drop, Int.toNat_natCast]; omega)]
    refine ⟨_, _, rfl, ?_⟩
    simp only [List.length_take, List.length_drop, Int.toNat_natCast]
    omega
  show ∃ off str, (if ¬ isShallowStringish (b &&& ~~~ trackFlag) = true then _ else _) = _ ∧ _
  cases hl with
  | @long k' b' n j _ _ ht' hc hv hn hsp hlen =>
    obtain ⟨rfl, rfl⟩ := here ht'
    have hj := hv.lt
    have hse := hsp.2
    have ht2 : isShallowStringish (b' &&& ~~~ trackFlag) = true ∧ ¬ (b' &&& ~~~ trackFlag > typeSHORT_BINARY_0) := by
      rcases hc with hc | hc <;> rw [hc] at ht <;> exact ht
    rw [if_neg (by rw [ht2.1]; simp), if_neg ht2.2, List.drop_drop]
    have hvd := vint_small (d := wrtDialect) ⟨rfl, rfl⟩ hv (by simp [maxSize] at hn; omega)
    change varintdecode (dbuf.drop (i + 1)) = _ at hvd
    rw [hvd]
    exact fin n n (j - (i + 1 + 1)) rfl hn (by omega)
  | @short k' b' n _ _ ht' hc hsp hlen =>
    obtain ⟨rfl, rfl⟩ := here ht'
    have hse := hsp.2
    rw [hc] at ht
    have hn0 : n ≠ 0 := by rintro rfl; exact hne (List.length_eq_zero_iff.1 hlen)
    obtain ⟨h2', h3⟩ := ht.2 hn0
    rw [if_neg (by rw [ht.1]; simp), if_pos h2']
    have hn32 : n ≤ maxSize := by
      have := UInt8.toNat_lt ((b' &&& ~~~ trackFlag) &&& 0x1f)
      simp [maxSize]; omega
    exact fin n (((b' &&& ~~~ trackFlag) &&& 0x1f).toNat : Int) 0 (by rw [h3]) hn32 (by omega)

theorem mergeString_does {s : LState} (hs : LBound s) {dbuf : Bytes} (dd : Bool) {n : Nat} {sz : Nat}
    (hn : n ≤ maxSize) (hle : s.didx + (sz + n + 1) ≤ dbuf.length) :
    ∃ m, mergeString s dbuf dd n sz = .ok m ∧ m.adv = sz + n + 1 ∧ MBound s m := by
  unfold mergeString
  rw [if_neg (by simp only [maxSize, maxUint32] at *; omega)]
  dsimp only
  rw [Int.toNat_natCast, if_neg (by omega)]
  split
  · split
    · next saved h =>
      refine ⟨_, rfl, rfl, ?_, hs.str.mono (Nat.le_add_right _ _), hs.obj.mono (Nat.le_add_right _ _)⟩
      have := hs.str _ _ h
      show saved ≤ _
      omega
    · refine ⟨_, rfl, rfl, ?_, ?_, hs.obj.mono (Nat.le_add_right _ _)⟩
      · show s.mbuf.length - 5 ≤ _
        omega
      · refine (hs.str.mono (Nat.le_add_right _ _)).cons ?_
        show s.mbuf.length - 5 ≤ _
        omega
  · exact ⟨_, rfl, rfl, hs.copy _ _ _ _⟩

theorem mergeObject_does {s : LState} (hs : LBound s) {y : UInt8} {dbuf : Bytes} {tag : UInt8} {k : Nat}
    (h : Name (y :: dbuf) (s.didx + 2) k) :
    ∃ m, mergeObject s dbuf tag = .ok m ∧ s.didx + 1 + m.adv = k ∧ MBound s m := by
  obtain ⟨off, str, h1, h2⟩ := h.read
  unfold mergeObject
  rw [h1]
  simp only [bind, Except.bind]
  split
  · next saved h =>
    refine ⟨_, rfl, ?_, ?_, hs.str.mono (Nat.le_add_right _ _), hs.obj.mono (Nat.le_add_right _ _)⟩
    · show s.didx + 1 + (off + str.length + 1) = k; omega
    · have := hs.obj _ _ h
      show saved ≤ _
      omega
  · have hl := hs.len
    refine ⟨_, rfl, ?_, ?_, hs.str.mono (Nat.le_add_right _ _), ?_⟩
    · show s.didx + 1 + (off + str.length + 1) = k; omega
    · show s.mbuf.length - 5 + 1 ≤ s.mbuf.length + _
      omega
    · refine (hs.obj.mono (Nat.le_add_right _ _)).cons ?_
      show s.mbuf.length - 5 + 1 ≤ s.mbuf.length + _
      omega

/-- A token in the second pass. -/
theorem Tok.moves {s : LState} (hs : LBound s) {y : UInt8} {dbuf slack : Bytes} {vs : List Nat} {k : Nat} {b : UInt8}
    (h : Tok (y :: dbuf) vs (s.didx + 1) b k) (hb : dbuf[s.didx]? = some b) (hlen : dbuf.length < 2 ^ 62)
    (hoff : ∀ o k', (classify (b.toNat % 128)).points = true → Vint wrtDialect (y :: dbuf) (s.didx + 2) o k' →
      ∃ p, idxLookup o s.trackTable = some p) (dd : Bool) :
    ∃ m, mergeTag s dbuf slack dd b = .ok m ∧ s.didx + 1 + m.adv = k ∧ MBound s m := by
  have hidx := (List.getElem?_eq_some_iff.1 hb).1
  have hlt := h.lt (by simp; omega)
  have hd : Mergeable wrtDialect := ⟨rfl, rfl⟩
  cases h with
  | single hc =>
    rw [mergeTag_eq _ _ _ _ _ (by intro e; rw [e] at hc; cases hc)]
    cases hcl : classify (b.toNat % 128) <;> rw [hcl] at hc <;>
      first
      | exact ⟨_, rfl, rfl, hs.copy _ _ _ _⟩
      | cases hc
  | @number n _ hc hv =>
    have hvd := (vint_dec hd hv).1
    change varintdecode (dbuf.drop (s.didx + 1)) = _ at hvd
    have hj := hv.lt
    have e : s.didx + 1 + (k - (s.didx + 1 + 1) + 1) = k := by omega
    rw [mergeTag_eq _ _ _ _ _ (by rcases hc with hc | hc <;> rw [hc] <;> simp)]
    rcases hc with hc | hc <;> rw [hc] <;> unfold mergeC <;> rw [hvd] <;> exact ⟨_, rfl, e, hs.copy _ _ _ _⟩
  | float hc hle =>
    rw [mergeTag_eq _ _ _ _ _ (by rw [hc]; simp), hc]
    show ∃ m, (do .ok (Moved.copy s (← cutCap dbuf slack s.didx (s.didx + 5)) 5)) = _ ∧ _
    rw [cutCap_in (by omega) (by simp at hle; omega)]
    exact ⟨_, rfl, rfl, hs.copy _ _ _ _⟩
  | double hc hle =>
    rw [mergeTag_eq _ _ _ _ _ (by rw [hc]; simp), hc]
    show ∃ m, (do .ok (Moved.copy s (← cutCap dbuf slack s.didx (s.didx + 9)) 9)) = _ ∧ _
    rw [cutCap_in (by omega) (by simp at hle; omega)]
    exact ⟨_, rfl, rfl, hs.copy _ _ _ _⟩
  | @long n j hc hv hn hle =>
    have hj := hv.lt
    have hvd := vint_small hd hv (by simp [maxSize] at hn; omega)
    change varintdecode (dbuf.drop (s.didx + 1)) = _ at hvd
    simp only [List.length_cons] at hle
    obtain ⟨m, h1, h2, h3⟩ := mergeString_does hs (dbuf := dbuf) dd (sz := j - (s.didx + 1 + 1)) hn (by omega)
    rw [mergeTag_eq _ _ _ _ _ (by rcases hc with hc | hc <;> rw [hc] <;> simp)]
    rcases hc with hc | hc <;> rw [hc] <;> unfold mergeC <;> rw [hvd] <;> exact ⟨m, h1, by omega, h3⟩
  | @short n hc hle =>
    simp only [List.length_cons] at hle
    rw [mergeTag_eq _ _ _ _ _ (by rw [hc]; simp), hc]
    match n, hle, hc with
    | 0, hle, _ => exact ⟨_, rfl, rfl, hs.copy _ _ _ _⟩
    | 1, hle, _ =>
      show ∃ m, (do .ok (Moved.copy s (← cutCap dbuf slack s.didx (s.didx + 2)) 2)) = _ ∧ _
      rw [cutCap_in (by omega) (by omega)]
      exact ⟨_, rfl, rfl, hs.copy _ _ _ _⟩
    | n + 2, hle, hc =>
      have hn : n + 2 ≤ maxSize := by
        have ht := readString_tag b
        rw [hc] at ht
        have h3 := (ht.2 (by omega)).2
        have := UInt8.toNat_lt ((b &&& ~~~ trackFlag) &&& 0x1f)
        simp [maxSize]; omega
      obtain ⟨m, h1, h2, h3⟩ := mergeString_does hs (dbuf := dbuf) dd (sz := 0) hn (by omega)
      exact ⟨m, h1, by omega, h3⟩
  | @box n _ hc hv hn =>
    have hvd := vint_small hd hv (by simp [maxSize] at hn; omega)
    change varintdecode (dbuf.drop (s.didx + 1)) = _ at hvd
    have hj := hv.lt
    have e : s.didx + 1 + (k - (s.didx + 1 + 1) + 1) = k := by omega
    rw [mergeTag_eq _ _ _ _ _ (by rcases hc with hc | hc <;> rw [hc] <;> simp)]
    rcases hc with hc | hc <;> rw [hc]
    · show ∃ m, mergeContainer s dbuf typeARRAY = _ ∧ _
      rw [mergeContainer_eq hvd, if_neg (by decide)]
      exact ⟨_, rfl, e, hs.copy _ _ _ _⟩
    · show ∃ m, mergeContainer s dbuf typeHASH = _ ∧ _
      rw [mergeContainer_eq hvd, if_pos rfl]
      exact ⟨_, rfl, e, hs.copy _ _ _ _⟩
  | @offset o _ hc hv ho hoi =>
    have hj := hv.lt
    have hvd := vint_small hd hv (by omega)
    change varintdecode (dbuf.drop (s.didx + 1)) = _ at hvd
    obtain ⟨p, hp⟩ := hoff o k hc hv
    have hpl := hs.trk o p hp
    have e : s.didx + 1 + (k - (s.didx + 1 + 1) + 1) = k := by omega
    have key : ∀ tag, ∃ m, mergeOffset s dbuf b tag = .ok m ∧ s.didx + 1 + m.adv = k ∧ MBound s m := by
      intro tag
      unfold mergeOffset
      rw [hvd]
      simp only [bind, Except.bind]
      rw [if_neg (by omega), Int.toNat_natCast, hp]
      dsimp only
      split
      · rw [if_pos (by simp [tagVarint]; omega)]
        exact ⟨_, rfl, e, (hs.copy _ 0 none false).idx, hs.str.mono (Nat.le_add_right _ _),
          hs.obj.mono (Nat.le_add_right _ _)⟩
      · split <;> exact ⟨_, rfl, e, hs.copy _ _ _ _⟩
    rw [mergeTag_eq _ _ _ _ _ (by intro e; rw [e] at hc; cases hc)]
    cases hcl : classify (b.toNat % 128) <;> rw [hcl] at hc <;> first | exact key _ | cases hc
  | object hc hn =>
    rw [mergeTag_eq _ _ _ _ _ (by rcases hc with hc | hc <;> rw [hc] <;> simp)]
    rcases hc with hc | hc <;> rw [hc] <;> exact mergeObject_does hs hn
  | @regexp j _ hc hn hn' =>
    rw [mergeTag_eq _ _ _ _ _ (by rw [hc]; simp), hc]
    obtain ⟨off, str, h1, h2⟩ := hn.read
    obtain ⟨j', rfl⟩ : ∃ j', j = j' + 1 := ⟨j - 1, by omega⟩
    obtain ⟨off', str', h3, h4⟩ := hn'.read
    unfold mergeC mergeRegexp
    rw [h1]
    simp only [bind, Except.bind]
    rw [show s.didx + (off + str.length + 1) = j' by omega, h3]
    refine ⟨_, rfl, ?_, hs.copy _ _ _ _⟩
    show s.didx + 1 + (off + str.length + 1 + (off' + str'.length)) = k
    omega

/-- What holds at place `i` of the second pass, if `K` are the tracked places. -/
structure Tracked (K : List Nat) (i : Nat) (s : LState) : Prop where
  at_ : s.didx + 1 = i
  idxs : s.trackIdxs = K.filter (i ≤ ·)
  table : ∀ k ∈ K, k < i → ∃ p, idxLookup k s.trackTable = some p
  bound : LBound s

/-- The loop succeeds from `s` on, and the tables stay in order. -/
def LoopOk (c : MCfg) (dbuf slack : Bytes) (cap : Nat) (s : LState) : Prop :=
  ∀ fuel, dbuf.length < fuel + s.didx → ∃ f, mergeLoop c dbuf slack cap fuel s = (.ok (), f) ∧ LBound f

theorem filter_next {K : List Nat} (hK : K.Pairwise (· < ·)) {i k : Nat} (hik : i < k)
    (hgap : ∀ x ∈ K, x ≤ i ∨ k ≤ x) :
    K.filter (i ≤ ·) = (if i ∈ K then [i] else []) ++ K.filter (k ≤ ·) := by
  induction K with
  | nil => rfl
  | cons x xs ih =>
    rw [List.pairwise_cons] at hK
    have ih := ih hK.2 (fun z hz => hgap z (by simp [hz]))
    rcases Nat.lt_trichotomy x i with hx | hx | hx
    · rw [List.filter_cons_of_neg (by simp; omega), List.filter_cons_of_neg (by simp; omega), ih]
      have : (i ∈ x :: xs) ↔ i ∈ xs := by simp; omega
      simp only [this]
    · subst hx
      rw [List.filter_cons_of_pos (by simp), List.filter_cons_of_neg (by simp; omega), ih,
        if_neg (fun h => Nat.lt_irrefl _ (hK.1 _ h)), if_pos List.mem_cons_self]
      rfl
    · have hkx : k ≤ x := (hgap x (by simp)).resolve_left (by omega)
      rw [List.filter_cons_of_pos (by simp; omega), List.filter_cons_of_pos (by simp; omega), ih,
        if_neg (fun h => by have := hK.1 _ h; omega), if_neg (by
          simp only [List.mem_cons, not_or]
          exact ⟨by omega, fun h => by have := hK.1 _ h; omega⟩)]
      rfl

/-- One round over a token. -/
theorem Tok.round {c : MCfg} {y : UInt8} {dbuf slack : Bytes} {cap : Nat} {vs K : List Nat} {i k : Nat} {b : UInt8}
    (h : Tok (y :: dbuf) vs i b k) (hb : (y :: dbuf)[i]? = some b) (hlen : dbuf.length < 2 ^ 62)
    (hK : K.Pairwise (· < ·)) (hgap : ∀ x ∈ K, x ≤ i ∨ k ≤ x)
    (hoff : ∀ o k', (classify (b.toNat % 128)).points = true → Vint wrtDialect (y :: dbuf) (i + 1) o k' →
      o ∈ K ∧ o < i)
    (hnext : ∀ s, Tracked K k s → LoopOk c dbuf slack cap s) (s : LState) (hs : Tracked K i s) :
    LoopOk c dbuf slack cap s := by
  obtain ⟨hat, hidxs, htab, hbd⟩ := hs
  subst hat
  have hb' : dbuf[s.didx]? = some b := by simpa using hb
  have hdl := (List.getElem?_eq_some_iff.1 hb').1
  have hlt := h.lt (by simp; omega)
  intro fuel hfuel
  cases fuel with
  | zero => omega
  | succ fuel =>
    rw [mergeLoop, hb']
    dsimp only
    cases hst : popZeros s.stack with
    | nil => exact ⟨s, rfl, hbd⟩
    | cons top rest =>
      dsimp only
      obtain ⟨m, h1, h2, h3⟩ := h.moves hbd (slack := slack) hb' hlen (fun o k' hp hv => by
        obtain ⟨h4, h5⟩ := hoff o k' hp hv
        exact htab o h4 h5) (dedupHere c top)
      rw [h1]
      dsimp only
      have hml : (s.move cap top rest m).mbuf.length = s.mbuf.length + m.out.length := by
        show (setFlag _ _).length = _
        rw [setFlag_length, List.length_append]
      have hf := filter_next hK hlt.1 hgap
      refine hnext (s.move cap top rest m) ⟨?_, ?_, ?_, ?_⟩ fuel (by show _ < fuel + (s.didx + m.adv); omega)
      · show s.didx + m.adv + 1 = k; omega
      · show (if s.trackIdxs.head? = some (s.didx + 1) then s.trackIdxs.tail else s.trackIdxs) = _
        rw [hidxs, hf]
        by_cases hm : s.didx + 1 ∈ K
        · rw [if_pos hm]
          show (if some (s.didx + 1) = some (s.didx + 1) then _ else _) = _
          rw [if_pos rfl]
          rfl
        · rw [if_neg hm, if_neg]
          · rfl
          · intro he
            have := List.mem_of_mem_head? he
            simp at this
            exact hm this.1
      · intro x hx hxk
        show ∃ p, idxLookup x (if s.trackIdxs.head? = some (s.didx + 1) then (s.didx + 1, m.idx) :: s.trackTable
          else s.trackTable) = some p
        rcases hgap x hx with hle | hle
        · by_cases he : x = s.didx + 1
          · rw [if_pos (by rw [hidxs, hf, if_pos (he ▸ hx)]; rfl), he, idxLookup, if_pos rfl]
            exact ⟨_, rfl⟩
          · obtain ⟨p, hp⟩ := htab x hx (by omega)
            refine ⟨p, ?_⟩
            split
            · rw [idxLookup, if_neg (fun e => he e.symm)]; exact hp
            · exact hp
        · omega
      · refine ⟨by rw [hml]; have := hbd.len; omega, by rw [hml]; exact h3.str, by rw [hml]; exact h3.obj, ?_⟩
        intro o p hop
        rw [hml]
        change idxLookup o (if s.trackIdxs.head? = some (s.didx + 1) then (s.didx + 1, m.idx) :: s.trackTable
          else s.trackTable) = some p at hop
        split at hop
        · rw [idxLookup] at hop
          split at hop
          · cases hop; exact h3.idx
          · have := hbd.trk o p hop; omega
        · have := hbd.trk o p hop; omega

/-- Both passes over a row of tokens. -/
theorem Toks.accepted (c : MCfg) {y : UInt8} {dbuf : Bytes} (slack : Bytes) (cap : Nat) {vs vs' : List Nat}
    {i j : Nat} (h : Toks (y :: dbuf) vs i vs' j) (hlen : dbuf.length < 2 ^ 62) (hi : 1 ≤ i)
    (hvs : ∀ x ∈ vs, x < i) (ks : List Nat) (hks : ks.Pairwise (· < ·)) (hin : ∀ x ∈ ks, x ∈ vs) :
    ∃ ks', Scan dbuf (i - 1) ks (j - 1) ks' ∧ ks'.Pairwise (· < ·) ∧ (∀ x ∈ ks, x ∈ ks') ∧ (∀ x ∈ ks', x ∈ vs') ∧
      ∀ K, K.Pairwise (· < ·) → (∀ x ∈ ks', x ∈ K) → (∀ x ∈ K, x ∈ vs' ∨ j ≤ x) →
        (∀ s, Tracked K j s → LoopOk c dbuf slack cap s) → ∀ s, Tracked K i s → LoopOk c dbuf slack cap s := by
  induction h generalizing ks with
  | nil => exact ⟨ks, Scan.refl _ _ _, hks, fun x hx => hx, hin, fun K _ _ _ hn => hn⟩
  | @cons vs i b k vs' j hb ht hr ih =>
    obtain ⟨idx, rfl⟩ : ∃ idx, i = idx + 1 := ⟨i - 1, by omega⟩
    have hb' : dbuf[idx]? = some b := by simpa using hb
    have hlt := ht.lt (List.getElem?_eq_some_iff.1 hb).1
    obtain ⟨o, h1, h2, h3⟩ := ht.scan hb' hlen ks
    have hm1 : ∀ x, x ∈ (if b &&& trackFlag = trackFlag then insertIdx (idx + 1) ks else ks) →
        x ∈ (idx + 1) :: vs := by
      intro x hx
      split at hx
      · rcases (insertIdx_mem _ _ _).1 hx with rfl | hx
        · simp
        · simp [hin x hx]
      · simp [hin x hx]
    have hs1 : (if b &&& trackFlag = trackFlag then insertIdx (idx + 1) ks else ks).Pairwise (· < ·) := by
      split
      · exact insertIdx_sorted _ _ hks
      · exact hks
    have hk1 : ∀ x ∈ ks, x ∈ (if b &&& trackFlag = trackFlag then insertIdx (idx + 1) ks else ks) := by
      intro x hx
      split
      · exact (insertIdx_mem _ _ _).2 (.inr hx)
      · exact hx
    generalize (if b &&& trackFlag = trackFlag then insertIdx (idx + 1) ks else ks) = ks1 at h1 hm1 hs1 hk1
    have hs2 : (addKey o ks1).Pairwise (· < ·) := by
      cases o with
      | none => exact hs1
      | some o => exact insertIdx_sorted _ _ hs1
    have hm2 : ∀ x ∈ addKey o ks1, x ∈ (idx + 1) :: vs := by
      cases o with
      | none => exact hm1
      | some o =>
        intro x hx
        rcases (insertIdx_mem _ _ _).1 hx with rfl | hx
        · simp [h2 _ rfl]
        · exact hm1 x hx
    obtain ⟨ks', i1, i2, i3, i4, i5⟩ := ih (by omega) (by
      intro x hx
      rcases List.mem_cons.1 hx with rfl | hx
      · exact hlt.1
      · have := hvs x hx; omega) (addKey o ks1) hs2 hm2
    have hk2 : ∀ x ∈ ks, x ∈ ks' := by
      intro x hx
      refine i3 x ?_
      cases o with
      | none => exact hk1 x hx
      | some o => exact (insertIdx_mem _ _ _).2 (.inr (hk1 x hx))
    refine ⟨ks', h1.trans i1, i2, hk2, i4, fun K k1 k2 k3 hn => ?_⟩
    have hpl := hr.places
    refine ht.round hb hlen k1 ?_ ?_ (i5 K k1 k2 k3 hn)
    · intro x hx
      rcases k3 x hx with h | h
      · rcases hpl.1 x h with h | h
        · rcases List.mem_cons.1 h with rfl | h
          · exact .inl (Nat.le_refl _)
          · exact .inl (by have := hvs x h; omega)
        · exact .inr h
      · exact .inr (Nat.le_trans hr.le h)
    · intro o' k' hp hv
      have := h3 o' k' hp hv
      subst this
      exact ⟨k2 _ (i3 _ ((insertIdx_mem _ _ _).2 (.inl rfl))), hvs _ (h2 _ rfl)⟩

end Sereal
