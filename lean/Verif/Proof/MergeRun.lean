import Verif.Proof.MergeTag
import Verif.Proof.Emit
/-
Runs of the loop of `mergeItems`, and what the merged bytes look like in the finished document.
-/
namespace Sereal

/-! ### Windows: the same bytes at two places -/

/-- The bytes of `D` in `i ≤ x < e` stand in `F` from `p` on. -/
structure Win (D : Bytes) (i : Nat) (F : Bytes) (p e : Nat) : Prop where
  le : e ≤ D.length
  get : ∀ x, i ≤ x → x < e → F[p + (x - i)]? = D[x]?

theorem Win.span {D F : Bytes} {i p e a j : Nat} {s : Bytes} (w : Win D i F p e) (h : Span D a s j)
    (ha : i ≤ a) (hj : j ≤ e) : Span F (p + (a - i)) s (p + (j - i)) := by
  obtain ⟨h1, h2⟩ := h
  refine ⟨?_, by omega⟩
  rw [List.prefix_iff_getElem?] at h1 ⊢
  intro n hn
  have h3 := h1 n hn
  rw [List.getElem?_drop] at h3 ⊢
  rw [← h3, ← w.get (a + n) (by omega) (by omega)]
  congr 1; omega

theorem Win.vint {d : Dialect} {D F : Bytes} {i p e a j n : Nat} (w : Win D i F p e) (h : Vint d D a n j)
    (ha : i ≤ a) (hj : j ≤ e) : Vint d F (p + (a - i)) n (p + (j - i)) := by
  obtain ⟨v, h1, h2, h3, h4⟩ := h
  exact ⟨v, h1, h2, w.span h3 ha hj, h4⟩

theorem Win.tag {D F : Bytes} {i p e k : Nat} {b : UInt8} (w : Win D i F p e) (h : D[k]? = some b)
    (hb : b.toNat % 128 ≠ 0x3f) (hk : i ≤ k) (he : k < e) : TagAt F (p + (k - i)) (p + (k - i)) b :=
  .here' (by rw [w.get k hk he]; exact h) hb

/-- A literal without padding, at another place. -/
theorem Win.lit {d : Dialect} {D F : Bytes} {i p e : Nat} {s : Bytes} (w : Win D i F p e)
    (h : Lit d D i s e) (hp : NotPad D i) : Lit d F p s (p + (e - i)) ∧ NotPad F p := by
  have hlt := h.lt
  have hnp : NotPad F p := by
    intro x hx
    have := w.get i (Nat.le_refl _) hlt.1
    rw [Nat.sub_self, Nat.add_zero] at this
    rw [this] at hx
    exact hp x hx
  have hk : ∀ {k b}, TagAt D i k b → k = i ∧ D[i]? = some b := by
    intro k b ht
    by_cases hki : k = i
    · subst hki; exact ⟨rfl, ht.2.2.1⟩
    · obtain ⟨q, hq, hq'⟩ := ht.2.1 i (Nat.le_refl _) (by have := ht.le; omega)
      exact absurd hq' (hp q hq)
  refine ⟨?_, hnp⟩
  cases h with
  | @long k b n j _ _ ht hc hv hn hs hl =>
    have hj := hv.lt
    have hse := hs.le
    obtain ⟨rfl, hb⟩ := hk ht
    have h1 := w.tag hb ht.2.2.2 (Nat.le_refl _) hlt.1
    have h2 := w.vint hv (by omega) hse
    have h3 := w.span hs (by omega) (Nat.le_refl _)
    rw [Nat.sub_self, Nat.add_zero] at h1
    rw [show p + (k + 1 - k) = p + 1 by omega] at h2
    exact .long h1 hc h2 hn h3 hl
  | @short k b n _ _ ht hc hs hl =>
    obtain ⟨rfl, hb⟩ := hk ht
    have h1 := w.tag hb ht.2.2.2 (Nat.le_refl _) hlt.1
    have h3 := w.span hs (by omega) (Nat.le_refl _)
    rw [Nat.sub_self, Nat.add_zero] at h1
    rw [show p + (k + 1 - k) = p + 1 by omega] at h3
    exact .short h1 hc h3 hl

/-! ### The finished document -/

/-- `F` (the buffer offsets refer to in the finished document) has the bytes of `m` (the merger's buffer,
which starts five bytes earlier) from position `base` on. -/
def Agr (base : Nat) (F m : Bytes) : Prop :=
  ∀ x b, base ≤ x → m[5 + x]? = some b → F[x]? = some b

theorem Agr.mono {base : Nat} {F X Y : Bytes} (h : Agr base F Y) (hp : X <+: Y) : Agr base F X :=
  fun x b hx hb => h x b hx (prefix_get hp hb)

theorem Agr.span {base : Nat} {F m w : Bytes} (h : Agr base F (m ++ w)) (hb : base + 5 ≤ m.length) :
    Span F (m.length - 5) w (m.length - 5 + w.length) := by
  refine ⟨?_, rfl⟩
  rw [List.prefix_iff_getElem?]
  intro n hn
  rw [List.getElem?_drop]
  refine h _ _ (by omega) ?_
  rw [show 5 + (m.length - 5 + n) = m.length + n by omega, List.getElem?_append_right (by omega)]
  simp [hn]

theorem Agr.win {base : Nat} {F m D : Bytes} {i e : Nat} (h : Agr base F (m ++ (D.drop i).take (e - i)))
    (hb : base + 5 ≤ m.length) (he : e ≤ D.length) : Win D i F (m.length - 5) e := by
  refine ⟨he, fun x h1 h2 => ?_⟩
  have hx : D[x]? = some (D[x]'(by omega)) := List.getElem?_eq_getElem _
  rw [hx]
  refine h _ _ (by omega) ?_
  rw [show 5 + (m.length - 5 + (x - i)) = m.length + (x - i) by omega, List.getElem?_append_right (by omega),
    show m.length + (x - i) - m.length = x - i by omega, List.getElem?_take_of_lt (by omega), List.getElem?_drop,
    show i + (x - i) = x by omega, hx]

/-- In the finished document there is a literal `k` at `o`, complete by now. -/
def LitAt (d : Dialect) (base : Nat) (m : Bytes) (o : Nat) (k : Bytes) : Prop :=
  o + 5 < m.length ∧ ∀ F, Agr base F m → (∃ e, Lit d F o k e ∧ e + 5 ≤ m.length) ∧ NotPad F o

/-- In the finished document there is a string `k` at `o`. -/
def StrAt (d : Dialect) (base : Nat) (m : Bytes) (o : Nat) (k : Bytes) : Prop :=
  o + 5 < m.length ∧ ∀ F, Agr base F m → (∃ e, Strish d F false o k e) ∧ NotPad F o

theorem LitAt.mono {d : Dialect} {base : Nat} {m m' : Bytes} {o : Nat} {k : Bytes} (h : LitAt d base m o k)
    (hp : m <+: m') : LitAt d base m' o k := by
  have := hp.length_le
  refine ⟨by have := h.1; omega, fun F hF => ?_⟩
  obtain ⟨⟨e, h1, h2⟩, h3⟩ := h.2 F (hF.mono hp)
  exact ⟨⟨e, h1, by omega⟩, h3⟩

theorem StrAt.mono {d : Dialect} {base : Nat} {m m' : Bytes} {o : Nat} {k : Bytes} (h : StrAt d base m o k)
    (hp : m <+: m') : StrAt d base m' o k := by
  have := hp.length_le
  exact ⟨by have := h.1; omega, fun F hF => h.2 F (hF.mono hp)⟩

theorem LitAt.str {d : Dialect} {base : Nat} {m : Bytes} {o : Nat} {k : Bytes} (h : LitAt d base m o k) :
    StrAt d base m o k :=
  ⟨h.1, fun F hF => by
    obtain ⟨⟨e, h1, -⟩, h3⟩ := h.2 F hF
    exact ⟨⟨e, .lit h1⟩, h3⟩⟩

/-- What the tables hold: offsets of literals in the merged document; for a visited place of the document
`D`, the place of the same string in the merged document. -/
structure MInv (d : Dialect) (base : Nat) (D : Bytes) (s : LState) : Prop where
  len : base + 5 ≤ s.mbuf.length
  str : ∀ k o, mapLookup k s.strTable = some o → LitAt d base s.mbuf o k
  obj : ∀ k o, mapLookup k s.objTable = some o → LitAt d base s.mbuf o k
  trk : ∀ o p, idxLookup o s.trackTable = some p → NotPad D o →
    (∀ k e, Lit d D o k e → LitAt d base s.mbuf p k) ∧ (∀ k e, Strish d D false o k e → StrAt d base s.mbuf p k)

/-- One round keeps the invariant. -/
theorem MInv.move {d : Dialect} {base : Nat} {D : Bytes} {s : LState} (h : MInv d base D s) {cap top : Nat}
    {rest : List Nat} {m : Moved} (hf : m.flip = none)
    (hs : ∀ k o, mapLookup k m.strTable = some o → LitAt d base (s.mbuf ++ m.out) o k)
    (ho : ∀ k o, mapLookup k m.objTable = some o → LitAt d base (s.mbuf ++ m.out) o k)
    (ht : NotPad D (s.didx + 1) →
      (∀ k e, Lit d D (s.didx + 1) k e → LitAt d base (s.mbuf ++ m.out) m.idx k) ∧
      (∀ k e, Strish d D false (s.didx + 1) k e → StrAt d base (s.mbuf ++ m.out) m.idx k)) :
    MInv d base D (s.move cap top rest m) := by
  have hm : (s.move cap top rest m).mbuf = s.mbuf ++ m.out := by
    show setFlag (s.mbuf ++ m.out) m.flip = _
    rw [hf]; rfl
  refine ⟨?_, ?_, ?_, ?_⟩
  · rw [hm, List.length_append]; have := h.len; omega
  · intro k o; rw [hm]; exact hs k o
  · intro k o; rw [hm]; exact ho k o
  · intro o p hop hnp
    rw [hm]
    have old : ∀ o p, idxLookup o s.trackTable = some p → NotPad D o →
        (∀ k e, Lit d D o k e → LitAt d base (s.mbuf ++ m.out) p k) ∧
        (∀ k e, Strish d D false o k e → StrAt d base (s.mbuf ++ m.out) p k) := fun o p h1 h2 =>
      ⟨fun k e h3 => ((h.trk o p h1 h2).1 k e h3).mono (List.prefix_append _ _),
        fun k e h3 => ((h.trk o p h1 h2).2 k e h3).mono (List.prefix_append _ _)⟩
    unfold LState.move at hop
    dsimp only at hop
    split at hop
    · rw [idxLookup] at hop
      split at hop
      · next e => subst e; cases hop; exact ht hnp
      · exact old o p hop hnp
    · exact old o p hop hnp

/-! ### Runs of the loop -/

section
variable (c : MCfg) (dbuf slack : Bytes) (cap : Nat)

/-- The loop, started in `s`, ends without error in `f` (apart from the stack). -/
def Runs (s f : LState) : Prop :=
  ∃ fuel f', mergeLoop c dbuf slack cap fuel s = (.ok (), f') ∧ f = { f' with stack := [] }

variable {c dbuf slack cap}

theorem Runs.step {s f : LState} (h : Runs c dbuf slack cap s f) {b : UInt8} (hb : dbuf[s.didx]? = some b)
    {top : Nat} {rest : List Nat} (hst : s.stack = top :: rest) (ht : top % 2 ^ 31 ≠ 0) :
    ∃ m, mergeTag s dbuf slack (dedupHere c top) b = .ok m ∧
      Runs c dbuf slack cap (s.move cap top rest m) f := by
  obtain ⟨fuel, f', h, hf⟩ := h
  cases fuel with
  | zero =>
    rw [mergeLoop, if_pos (List.getElem?_eq_some_iff.1 hb).1] at h
    cases h
  | succ fuel =>
    rw [mergeLoop, hb, hst, popZeros, if_neg ht] at h
    dsimp only at h
    cases hm : mergeTag s dbuf slack (dedupHere c top) b with
    | error e => rw [hm] at h; cases h
    | ok m =>
      rw [hm] at h
      exact ⟨m, rfl, fuel, f', h, hf⟩

/-- At the end, or when every container is complete, the loop is over. -/
theorem Runs.done {s f : LState} (h : Runs c dbuf slack cap s f) (hst : popZeros s.stack = []) :
    f = { s with stack := [] } := by
  obtain ⟨fuel, f', h, hf⟩ := h
  cases fuel with
  | zero =>
    rw [mergeLoop] at h
    split at h
    · cases h
    · cases h; exact hf
  | succ fuel =>
    rw [mergeLoop] at h
    split at h
    · cases h; exact hf
    · rw [hst] at h
      cases h; exact hf

theorem mergeTag_stack (s : LState) (st : List Nat) (dedup : Bool) (b : UInt8) :
    mergeTag { s with stack := st } dbuf slack dedup b = mergeTag s dbuf slack dedup b := rfl

theorem Runs.restack {s f : LState} (h : Runs c dbuf slack cap s f) {st : List Nat}
    (hst : popZeros s.stack = popZeros st) : Runs c dbuf slack cap { s with stack := st } f := by
  obtain ⟨fuel, f', h, hf⟩ := h
  cases fuel with
  | zero =>
    rw [mergeLoop] at h
    split at h
    · cases h
    · next hl =>
      cases h
      exact ⟨0, { s with stack := st }, by rw [mergeLoop, if_neg hl], hf⟩
  | succ fuel =>
    rw [mergeLoop] at h
    split at h
    · next hb =>
      cases h
      exact ⟨1, { s with stack := st }, by rw [mergeLoop]; dsimp only; rw [hb], hf⟩
    · next b hb =>
      split at h
      · next hp =>
        cases h
        exact ⟨1, { s with stack := st }, by rw [mergeLoop]; dsimp only; rw [hb, ← hst, hp], hf⟩
      · next top rest hp =>
        refine ⟨fuel + 1, f', ?_, hf⟩
        rw [mergeLoop]
        dsimp only
        rw [hb, ← hst, hp]
        dsimp only
        rw [mergeTag_stack]
        split at h
        · next e hm => cases h
        · next m hm => exact h

theorem setFlag_length (x : Bytes) (o : Option Nat) : (setFlag x o).length = x.length := by
  cases o <;> simp [setFlag]

theorem mergeLoop_len (fuel : Nat) (s f : LState) {r : Res Unit} (h : mergeLoop c dbuf slack cap fuel s = (r, f)) :
    s.mbuf.length ≤ f.mbuf.length := by
  induction fuel generalizing s with
  | zero => rw [mergeLoop] at h; split at h <;> cases h <;> exact Nat.le_refl _
  | succ fuel ih =>
    rw [mergeLoop] at h
    split at h
    · cases h; exact Nat.le_refl _
    · split at h
      · cases h; exact Nat.le_refl _
      · split at h
        · cases h; exact Nat.le_refl _
        · refine Nat.le_trans ?_ (ih _ h)
          show _ ≤ (setFlag _ _).length
          rw [setFlag_length, List.length_append]
          omega

theorem Runs.len {s f : LState} (h : Runs c dbuf slack cap s f) : s.mbuf.length ≤ f.mbuf.length := by
  obtain ⟨fuel, f', h, rfl⟩ := h
  exact mergeLoop_len fuel s f' h

end

end Sereal
