import Verif.Proof.MergeAll
/-
KeepFlat: what `expectedElements` finds.
-/
namespace Sereal

/-- The item behind a tag that is not padding. -/
theorem G.item_at {d : Dialect} {buf : Bytes} {cd : Bool} {i : Nat} {T : Seen} {t : Tree} {j : Nat} {T' : Seen}
    (h : G d buf cd .item i T (.tree t) j T') {b : UInt8} (hb : buf[i]? = some b) (hp : b.toNat % 128 ≠ 0x3f) :
    ∃ T1 T1', G d buf cd (.body (classify (b.toNat % 128))) (i + 1) T1 (.tree t) j T1' := by
  have hk : ∀ {k b'}, TagAt buf i k b' → k = i ∧ b' = b := by
    intro k b' ht
    by_cases hki : k = i
    · subst hki
      have := ht.2.2.1
      rw [hb] at this
      exact ⟨rfl, (Option.some.inj this).symm⟩
    · obtain ⟨q, hq, hq'⟩ := ht.2.1 i (Nat.le_refl _) (by have := ht.le; omega)
      rw [hb] at hq
      cases hq
      exact absurd hq' hp
  cases h with
  | plain ht hlt h =>
    obtain ⟨rfl, rfl⟩ := hk ht
    rw [Nat.mod_eq_of_lt hlt]
    exact ⟨_, _, h⟩
  | @tracked _ _ k b' _ _ _ _ ht hge h =>
    obtain ⟨rfl, rfl⟩ := hk ht
    have hlt := b'.toNat_lt
    rw [show b'.toNat % 128 = b'.toNat - 128 by omega]
    exact ⟨_, _, h⟩

theorem untracked_eq {b : UInt8} {n : Nat} (hn : n < 128) : b &&& ~~~ trackFlag = UInt8.ofNat n ↔ b.toNat % 128 = n := by
  constructor
  · intro h
    rw [← and_not_track, h, UInt8.toNat_ofNat']
    omega
  · intro h
    apply UInt8.toNat.inj
    rw [and_not_track, h, UInt8.toNat_ofNat']
    omega

theorem arrayref_range (b : UInt8) : (typeARRAYREF_0 ≤ b &&& ~~~ trackFlag ∧ b &&& ~~~ trackFlag < typeARRAYREF_0 + 16) ↔
    64 ≤ b.toNat % 128 ∧ b.toNat % 128 < 80 := by
  revert b; apply u8_forall; set_option maxRecDepth 8000 in decide

theorem arrayref_len (b : UInt8) (h : 64 ≤ b.toNat % 128 ∧ b.toNat % 128 < 80) :
    classify (b.toNat % 128) = .arrayref (b.toNat % 128 - 64) ∧
    ((b &&& ~~~ trackFlag) &&& 0xf).toNat = b.toNat % 128 - 64 := by
  revert b; apply u8_forall; set_option maxRecDepth 8000 in decide

/-- ARRAYREF_n. -/
def TagC.isArrayref : TagC → Bool
  | .arrayref _ => true
  | _ => false

/-- Only ARRAY makes an array. -/
theorem G.ne_arr {d : Dialect} {buf : Bytes} {i : Nat} {T : Seen} {t : Tree} {j : Nat}
    {T' : Seen} {n : Nat} (h : G d buf false (.body (classify n)) i T (.tree t) j T') (hd : d.strictCopy = true)
    (hn : n < 128) (h1 : n ≠ 0x2b) (ts : List Tree) : t ≠ .arr ts := by
  rintro rfl
  generalize hc : classify n = c at h
  cases h with
  | array =>
    apply h1; clear h1
    revert hc; revert n; decide
  | copy hs => rw [hd] at hs; cases hs

/-- Only REFN and ARRAYREF_n make a reference to an array. -/
theorem G.ne_ref {d : Dialect} {buf : Bytes} {i : Nat} {T : Seen} {t : Tree} {j : Nat}
    {T' : Seen} {n : Nat} (h : G d buf false (.body (classify n)) i T (.tree t) j T') (hd : d.strictCopy = true)
    (hn : n < 128) (h1 : n ≠ 0x28) (h2 : ¬ (64 ≤ n ∧ n < 80)) (ts : List Tree) : t ≠ .ref (.arr ts) := by
  rintro rfl
  generalize hc : classify n = c at h
  cases h with
  | refn =>
    apply h1; clear h1 h2
    revert hc; revert n; decide
  | @arrayref _ _ _ m =>
    apply h2; clear h1 h2
    have hc' : (classify n).isArrayref = true := by rw [hc]; rfl
    clear hc
    revert hc'; revert n; decide
  | copy hs => rw [hd] at hs; cases hs

theorem flatten_single {top : TopLevel} {t : Tree} (h1 : top = .array → ∀ ts, t ≠ .arr ts)
    (h2 : top = .arrayRef → ∀ ts, t ≠ .ref (.arr ts)) : flatten top t = [t] := by
  unfold flatten
  split
  · next ts => exact absurd rfl (h2 rfl ts)
  · next ts => exact absurd rfl (h1 rfl ts)
  · rfl

/-- The elements `Append` takes from a document. -/
theorem flat_adds {c : MCfg} (hkf : c.keepFlat = true) {body : Bytes} (hbare : Bare body) {y : UInt8} {t : Tree}
    {j : Nat} (hd : Denotes wrtDialect (y :: body) 1 t j) (hlen : body.length + 1 < 2 ^ 31) :
    ∃ (n off : Nat) (T T' : Seen) (j : Nat), expectedElements c body = .ok ((n : Int), off) ∧
      G wrtDialect (y :: body) false (.items n) (off + 1) T (.trees (flatten c.topLevel t)) j T' := by
  obtain ⟨b0, b1, rest, rfl, hp0, hp1⟩ := hbare
  obtain ⟨T0, g⟩ := hd
  have g0 := g
  obtain ⟨T1, T1', g⟩ := g.item_at (b := b0) rfl hp0
  have hE : expectedElements c (b0 :: b1 :: rest) =
      (if c.topLevel = .array ∧ b0 &&& ~~~ trackFlag = typeARRAY then do
        let (ln, sz) ← varintdecode ((b0 :: b1 :: rest).drop 1)
        .ok (ln, sz + 1)
      else if c.topLevel = .arrayRef ∧ b0 &&& ~~~ trackFlag = typeREFN ∧ b1 &&& ~~~ trackFlag = typeARRAY then do
        let (ln, sz) ← varintdecode ((b0 :: b1 :: rest).drop 2)
        .ok (ln, sz + 2)
      else if c.topLevel = .arrayRef ∧ typeARRAYREF_0 ≤ b0 &&& ~~~ trackFlag ∧
          b0 &&& ~~~ trackFlag < typeARRAYREF_0 + 16 then
        .ok ((((b0 &&& ~~~ trackFlag) &&& 0xf).toNat : Int), 1)
      else .ok (1, 0)) := by
    unfold expectedElements
    rw [if_pos hkf]
    rfl
  have e1 : typeARRAY = UInt8.ofNat 0x2b := rfl
  have e2 : typeREFN = UInt8.ofNat 0x28 := rfl
  rw [hE]
  simp only [e1, e2, untracked_eq (show 0x2b < 128 by omega), untracked_eq (show 0x28 < 128 by omega), arrayref_range]
  have one : flatten c.topLevel t = [t] → ∃ (n off : Nat) (T T' : Seen) (j : Nat),
      (.ok (1, 0) : Res (Int × Nat)) = .ok ((n : Int), off) ∧
      G wrtDialect (y :: b0 :: b1 :: rest) false (.items n) (off + 1) T (.trees (flatten c.topLevel t)) j T' := by
    intro he
    rw [he]
    exact ⟨1, 0, _, _, _, rfl, .itemsCons g0 .itemsNil⟩
  by_cases hA : c.topLevel = .array ∧ b0.toNat % 128 = 0x2b
  · rw [if_pos hA]
    rw [hA.2] at g
    cases g with
    | @array _ _ _ n k ts _ _ hv hn hin =>
      have hvd := vint_small wrt_mergeable hv (by simp only [maxSize] at hn; omega)
      refine ⟨n, (k - 2) + 1, ?_, ?_, ?_, ?_, ?_⟩
      case refine_4 =>
        change varintdecode ((b0 :: b1 :: rest).drop 1) = _ at hvd
        rw [hvd]; rfl
      case refine_5 =>
        have := hv.lt
        rw [show k - 2 + 1 + 1 = k by omega, hA.1]
        exact hin
  · rw [if_neg hA]
    by_cases hR : c.topLevel = .arrayRef ∧ b0.toNat % 128 = 0x28 ∧ b1.toNat % 128 = 0x2b
    · rw [if_pos hR]
      rw [hR.2.1] at g
      cases g with
      | refn gi =>
        obtain ⟨T2, T2', gi⟩ := gi.item_at (b := b1) rfl (hp1 hR.2.1)
        rw [hR.2.2] at gi
        cases gi with
        | @array _ _ _ n k ts _ _ hv hn hin =>
          have hvd := vint_small wrt_mergeable hv (by simp only [maxSize] at hn; omega)
          refine ⟨n, (k - 3) + 2, ?_, ?_, ?_, ?_, ?_⟩
          case refine_4 =>
            change varintdecode ((b0 :: b1 :: rest).drop 2) = _ at hvd
            rw [hvd]; rfl
          case refine_5 =>
            have := hv.lt
            rw [show k - 3 + 2 + 1 = k by omega, hR.1]
            exact hin
    · rw [if_neg hR]
      by_cases hF : c.topLevel = .arrayRef ∧ 64 ≤ b0.toNat % 128 ∧ b0.toNat % 128 < 80
      · rw [if_pos hF]
        obtain ⟨h1, h2⟩ := arrayref_len b0 hF.2
        rw [h1] at g
        cases g with
        | arrayref hin =>
          refine ⟨_, 1, ?_, ?_, ?_, by rw [h2], ?_⟩
          case refine_4 =>
          rw [hF.1]
          exact hin
      · rw [if_neg hF]
        apply one
        by_cases hR' : c.topLevel = .arrayRef ∧ b0.toNat % 128 = 0x28
        · rw [hR'.2] at g
          cases g with
          | refn gi =>
            obtain ⟨T2, T2', gi⟩ := gi.item_at (b := b1) rfl (hp1 hR'.2)
            have hne := gi.ne_arr rfl (Nat.mod_lt _ (by omega)) (fun h => hR ⟨hR'.1, hR'.2, h⟩)
            refine flatten_single (fun h => by rw [hR'.1] at h; cases h) (fun _ ts h => ?_)
            cases h
            exact hne ts rfl
        · exact flatten_single (fun h => g.ne_arr rfl (Nat.mod_lt _ (by omega)) (fun h2 => hA ⟨h, h2⟩))
            (fun h => g.ne_ref rfl (Nat.mod_lt _ (by omega)) (fun h2 => hR' ⟨h, h2⟩) (fun h2 => hF ⟨h, h2⟩))

theorem DocHoldsBare.adds {c : MCfg} (hkf : c.keepFlat = true) {cs : Codecs} {b : Bytes} {t : Tree}
    (h : DocHoldsBare cs b t) : Adds c cs b (flatten c.topLevel t) := by
  obtain ⟨body, y, j, h1, h2, h3, h4⟩ := h
  obtain ⟨n, off, T, T', j, h5, h6⟩ := flat_adds hkf h4 h3 h2
  exact ⟨body, y, n, off, T, T', j, h1, h2, h5, h6⟩

end Sereal
