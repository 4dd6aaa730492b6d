import Verif.Proof.MergeSane
import Verif.Proof.ApiSafe
import Verif.Spec.CutShort
/-
When `Append` and `Finish` crash, and what they see of the memory behind the documents.
-/
namespace Sereal

theorem Returns.ok {α : Type} (a : α) : Returns (.ok a : Res α) := fun e h => by cases h

theorem Returns.err {α : Type} (er : Err) : Returns (.error (.err er) : Res α) := fun e h => by cases h; exact ⟨_, rfl⟩

theorem Returns.bind {α β : Type} {x : Res α} {f : α → Res β} (hx : Returns x) (hf : ∀ a, x = .ok a → Returns (f a)) :
    Returns (x >>= f) := by
  intro e h
  rcases Res.bind_error.1 h with h | ⟨a, h1, h2⟩
  · exact hx e h
  · exact hf a h1 e h2

theorem Returns.ite {α : Type} {p : Prop} [Decidable p] {a b : Res α} (ha : p → Returns a) (hb : ¬ p → Returns b) :
    Returns (if p then a else b) := by
  split
  · exact ha (by assumption)
  · exact hb (by assumption)

theorem varintdecode_returns (b : Bytes) : Returns (varintdecode b) := fun _ h => ⟨_, varintdecode_error h⟩

theorem readString_returns {y : Bytes} (h : y ≠ []) : Returns (readString y) := by
  unfold readString
  refine .bind ?_ fun b _ => ?_
  · intro e he
    cases y with
    | nil => exact absurd rfl h
    | cons a y => cases he
  · refine .ite (fun _ => .err _) fun _ => ?_
    refine .bind (.ite (fun _ => .ok _) fun _ => varintdecode_returns _) fun p _ => ?_
    obtain ⟨ln, offset⟩ := p
    exact .ite (fun _ => .err _) fun _ => .ite (fun _ => .err _) fun _ => .ok _

/-- The tags `readString` takes for strings. -/
theorem stringish_tag (b : UInt8) (h : isShallowStringish (b &&& ~~~ trackFlag) = true) :
    ((b &&& ~~~ trackFlag > typeSHORT_BINARY_0) →
      b.toNat % 128 = 0x60 + ((b &&& ~~~ trackFlag) &&& 0x1f).toNat ∧ ((b &&& ~~~ trackFlag) &&& 0x1f).toNat ≠ 0) ∧
    (¬ (b &&& ~~~ trackFlag > typeSHORT_BINARY_0) →
      b.toNat % 128 = 0x26 ∨ b.toNat % 128 = 0x27 ∨ b.toNat % 128 = 0x60) := by
  revert b; apply u8_forall; set_option maxRecDepth 8000 in decide

/-- What `readString` reads does not go beyond the end; if it goes to the end then that is all there is. -/
theorem readString_end {y str : Bytes} {off : Nat} (h : readString y = .ok (off, str)) :
    1 ≤ off ∧ off + str.length ≤ y.length ∧ (off + str.length = y.length → OneString y) := by
  unfold readString at h
  obtain ⟨b, hb, h⟩ := Res.bind_ok.1 h
  obtain ⟨z, rfl⟩ : ∃ z, y = b :: z := by
    cases y with
    | nil => cases hb
    | cons a z => cases hb; exact ⟨z, rfl⟩
  dsimp only at h
  split at h
  · cases h
  · next hs =>
    have ht := stringish_tag b (by simpa using hs)
    generalize b &&& ~~~ trackFlag = tag at h hs ht
    split at h
    · next hgt =>
      obtain ⟨⟨ln, offset⟩, h1, h⟩ := Res.bind_ok.1 h
      cases h1
      dsimp only at h
      obtain ⟨t1, t2⟩ := ht.1 hgt
      generalize (tag &&& 0x1f).toNat = n at h t1 t2
      split at h
      · cases h
      · split at h
        · cases h
        · next hlen =>
          cases h
          rw [Int.toNat_natCast] at hlen ⊢
          have hlen' : ¬ (1 + n > z.length + 1) := by simpa using hlen
          have hl : (((b :: z).drop (0 + 1)).take n).length = n := by
            rw [Nat.zero_add, List.drop_succ_cons, List.drop_zero, List.length_take]; omega
          rw [hl, List.length_cons]
          refine ⟨Nat.le_refl _, by omega, fun he => ?_⟩
          exact ⟨b, z, .inl ⟨rfl, by rintro rfl; rw [List.length_nil] at he; omega, by omega⟩⟩
    · next hgt =>
      obtain ⟨⟨ln, offset⟩, h1, h⟩ := Res.bind_ok.1 h
      dsimp only at h
      obtain ⟨v, rest, h5, h6, h7, h8, h9⟩ := varintdecode_ok h1
      change z = v ++ rest at h5
      subst h5
      split at h
      · cases h
      · next hln =>
        split at h
        · cases h
        · next hlen =>
          cases h
          simp only [List.length_cons, List.length_append] at hlen
          have hl : (((b :: (v ++ rest)).drop (offset + 1)).take ln.toNat).length = ln.toNat := by simp; omega
          rw [hl]
          refine ⟨by omega, by simp; omega, fun he => ?_⟩
          simp only [List.length_cons, List.length_append] at he
          have hg : groups v % 2 ^ 64 = ln.toNat := by
            rw [BitVec.toInt_eq_toNat_cond, BitVec.toNat_ofNat] at h9
            have h0 : 0 ≤ ln := by omega
            split at h9 <;> omega
          exact ⟨b, rest, .inr ⟨v, rfl, h6, by omega, ht.2 hgt⟩⟩

/-! ### One round -/

/-- All offsets in the tables lie inside the buffer. -/
structure LInside (s : LState) : Prop where
  len : 12 ≤ s.mbuf.length
  str : ∀ k o, mapLookup k s.strTable = some o → o < s.mbuf.length
  obj : ∀ k o, mapLookup k s.objTable = some o → o < s.mbuf.length
  trk : ∀ o p, idxLookup o s.trackTable = some p → p < s.mbuf.length

structure MovedInside (n : Nat) (m : Moved) : Prop where
  adv : 1 ≤ m.adv
  idx : m.idx < n
  str : ∀ k o, mapLookup k m.strTable = some o → o < n
  obj : ∀ k o, mapLookup k m.objTable = some o → o < n

theorem cutCap_returns {b slack : Bytes} {lo hi : Nat} (hlo : lo ≤ hi) (h : hi ≤ b.length) :
    Returns (cutCap b slack lo hi) := by
  rw [cutCap_in hlo h]
  exact .ok _

section
variable {s : LState} (hs : LInside s)
include hs

theorem LInside.idx : s.mrgIdx + 1 < s.mbuf.length := by
  have := hs.len
  unfold LState.mrgIdx mergeBodyOffset
  omega

theorem LInside.copy {out : Bytes} {adv : Nat} {push : Option Nat} {fake : Bool} (ha : 1 ≤ adv) :
    MovedInside s.mbuf.length (Moved.copy s out adv push fake) :=
  ⟨ha, by have := hs.idx; show s.mrgIdx < _; omega, hs.str, hs.obj⟩

theorem LInside.string {dbuf : Bytes} {dd : Bool} {ln : Int} {sz : Nat} {m : Moved}
    (h : mergeString s dbuf dd ln sz = .ok m) : MovedInside s.mbuf.length m := by
  have hi := hs.idx
  unfold mergeString at h
  split at h
  · cases h
  · dsimp only at h
    split at h
    · cases h
    · split at h
      · split at h
        · next saved hl => cases h; exact ⟨by show 1 ≤ _ + 1; omega, hs.str _ _ hl, hs.str, hs.obj⟩
        · cases h
          refine ⟨by show 1 ≤ _ + 1; omega, by show s.mrgIdx < _; omega, ?_, hs.obj⟩
          intro k o hk
          rw [mapLookup] at hk
          split at hk
          · cases hk; omega
          · exact hs.str k o hk
      · cases h; exact hs.copy (by omega)

theorem LInside.offset {dbuf : Bytes} {b tag : UInt8} {m : Moved} (h : mergeOffset s dbuf b tag = .ok m) :
    MovedInside s.mbuf.length m := by
  unfold mergeOffset at h
  obtain ⟨⟨offset, sz⟩, h1, h⟩ := Res.bind_ok.1 h
  dsimp only at h
  split at h
  · cases h
  · split at h
    · split at h
      · cases h
        exact ⟨by show 1 ≤ _ + 1; omega, by have := hs.idx; show s.mrgIdx < _; omega, hs.str, hs.obj⟩
      · cases h
    · split at h <;> cases h <;> exact hs.copy (by omega)

theorem LInside.container {dbuf : Bytes} {tag : UInt8} {m : Moved} (h : mergeContainer s dbuf tag = .ok m) :
    MovedInside s.mbuf.length m := by
  unfold mergeContainer at h
  obtain ⟨⟨offset, sz⟩, h1, h⟩ := Res.bind_ok.1 h
  dsimp only at h
  split at h
  · cases h
  · split at h <;> cases h <;> exact hs.copy (by omega)

theorem LInside.regexp {dbuf : Bytes} {m : Moved} (h : mergeRegexp s dbuf = .ok m) :
    MovedInside s.mbuf.length m := by
  unfold mergeRegexp at h
  obtain ⟨⟨offset, sz⟩, h1, h⟩ := Res.bind_ok.1 h
  obtain ⟨⟨offset', sz'⟩, h2, h⟩ := Res.bind_ok.1 h
  cases h
  exact hs.copy (by omega)

theorem LInside.object {dbuf : Bytes} {tag : UInt8} {m : Moved} (h : mergeObject s dbuf tag = .ok m) :
    MovedInside s.mbuf.length m := by
  have hi := hs.idx
  unfold mergeObject at h
  obtain ⟨⟨offset, str⟩, h1, h⟩ := Res.bind_ok.1 h
  dsimp only at h
  split at h
  · next saved hl => cases h; exact ⟨by show 1 ≤ _ + 1; omega, hs.obj _ _ hl, hs.str, hs.obj⟩
  · cases h
    refine ⟨by show 1 ≤ _ + 1; omega, hi, hs.str, ?_⟩
    intro k o hk
    rw [mapLookup] at hk
    split at hk
    · cases hk; omega
    · exact hs.obj k o hk

/-- One round moves on, and the new entries of the tables lie inside the buffer, too. -/
theorem LInside.tag {dbuf slack : Bytes} {dd : Bool} {b : UInt8} {m : Moved}
    (h : mergeTag s dbuf slack dd b = .ok m) : MovedInside s.mbuf.length m := by
  unfold mergeTag at h
  dsimp only at h
  generalize b &&& ~~~ trackFlag = tag at h
  rcases ite_ok h with ⟨-, h⟩ | ⟨-, h⟩
  · cases h; exact hs.copy (by omega)
  rcases ite_ok h with ⟨-, h⟩ | ⟨-, h⟩
  · cases h; exact hs.copy (by omega)
  rcases ite_ok h with ⟨-, h⟩ | ⟨-, h⟩
  · obtain ⟨⟨_, sz⟩, h1, h⟩ := Res.bind_ok.1 h
    cases h; exact hs.copy (by omega)
  rcases ite_ok h with ⟨-, h⟩ | ⟨-, h⟩
  · obtain ⟨_, h1, h⟩ := Res.bind_ok.1 h
    cases h; exact hs.copy (by omega)
  rcases ite_ok h with ⟨-, h⟩ | ⟨-, h⟩
  · obtain ⟨_, h1, h⟩ := Res.bind_ok.1 h
    cases h; exact hs.copy (by omega)
  rcases ite_ok h with ⟨-, h⟩ | ⟨-, h⟩
  · obtain ⟨_, h1, h⟩ := Res.bind_ok.1 h
    cases h; exact hs.copy (by omega)
  rcases ite_ok h with ⟨-, h⟩ | ⟨-, h⟩
  · obtain ⟨_, h1, h⟩ := Res.bind_ok.1 h
    cases h; exact hs.copy (by omega)
  rcases ite_ok h with ⟨-, h⟩ | ⟨-, h⟩
  · obtain ⟨⟨_, _⟩, h1, h⟩ := Res.bind_ok.1 h
    exact hs.string h
  rcases ite_ok h with ⟨-, h⟩ | ⟨-, h⟩
  · exact hs.string h
  rcases ite_ok h with ⟨-, h⟩ | ⟨-, h⟩
  · exact hs.offset h
  rcases ite_ok h with ⟨-, h⟩ | ⟨-, h⟩
  · exact hs.container h
  rcases ite_ok h with ⟨-, h⟩ | ⟨-, h⟩
  · cases h; exact hs.copy (by omega)
  rcases ite_ok h with ⟨-, h⟩ | ⟨-, h⟩
  · cases h; exact hs.copy (by omega)
  rcases ite_ok h with ⟨-, h⟩ | ⟨-, h⟩
  · exact hs.regexp h
  rcases ite_ok h with ⟨-, h⟩ | ⟨-, h⟩
  · exact hs.object h
  rcases ite_ok h with ⟨-, h⟩ | ⟨-, h⟩ <;> cases h

/-- One round does not crash, unless an item is cut off. -/
theorem LInside.returns {dbuf slack : Bytes} {dd : Bool} {b : UInt8} (hb : dbuf[s.didx]? = some b)
    (hc : ¬ CutShort dbuf) : Returns (mergeTag s dbuf slack dd b) := by
  have hn := and_not_track b
  have hlt := (List.getElem?_eq_some_iff.1 hb).1
  have hno : ¬ CutAt dbuf s.didx (b.toNat % 128) := fun h => hc ⟨_, _, hb, h⟩
  rw [← hn] at hno
  unfold mergeTag
  dsimp only
  generalize b &&& ~~~ trackFlag = tag at hn hno
  have hstr : ∀ dd ln sz, Returns (mergeString s dbuf dd ln sz) := by
    intro dd ln sz
    unfold mergeString
    refine .ite (fun _ => .err _) fun _ => .ite (fun _ => .err _) fun _ => .ite (fun _ => ?_) fun _ => .ok _
    dsimp only
    split <;> exact .ok _
  have hobj : tag = typeOBJECT ∨ tag = typeOBJECT_FREEZE ∨ tag = typeREGEXP → dbuf.drop (s.didx + 1) ≠ [] := by
    intro h he
    refine hno (.inr (.inr (.inr (.inr (.inl ⟨?_, ?_⟩)))))
    · rcases h with rfl | rfl | rfl
      · exact .inl rfl
      · exact .inr (.inl rfl)
      · exact .inr (.inr rfl)
    · have := congrArg List.length he
      rw [List.length_drop, List.length_nil] at this
      omega
  refine .ite (fun _ => .ok _) fun _ => .ite (fun _ => .ok _) fun _ => ?_
  refine .ite (fun _ => .bind (varintdecode_returns _) fun p _ => .ok _) fun _ => ?_
  refine .ite (fun ht => .bind (cutCap_returns (by omega) ?_) fun p _ => .ok _) fun _ => ?_
  · subst ht
    exact Nat.le_of_not_lt fun h => hno (.inl ⟨rfl, h⟩)
  refine .ite (fun ht => .bind (cutCap_returns (by omega) ?_) fun p _ => .ok _) fun _ => ?_
  · subst ht
    exact Nat.le_of_not_lt fun h => hno (.inr (.inl ⟨rfl, h⟩))
  refine .ite (fun ht => .bind (cutCap_returns (by omega) ?_) fun p _ => .ok _) fun _ => ?_
  · subst ht
    exact Nat.le_of_not_lt fun h => hno (.inr (.inr (.inl ⟨rfl, h⟩)))
  refine .ite (fun ht => .bind (cutCap_returns (by omega) ?_) fun p _ => .ok _) fun _ => ?_
  · subst ht
    exact Nat.le_of_not_lt fun h => hno (.inr (.inr (.inr (.inl ⟨rfl, h⟩))))
  refine .ite (fun _ => .bind (varintdecode_returns _) fun p _ => hstr _ _ _) fun _ => ?_
  refine .ite (fun _ => hstr _ _ _) fun _ => ?_
  refine .ite (fun _ => ?_) fun _ => ?_
  · unfold mergeOffset
    refine .bind (varintdecode_returns _) fun p _ => ?_
    obtain ⟨offset, sz⟩ := p
    dsimp only
    split
    · exact .err _
    · next target ht =>
      refine .ite (fun _ => .ite (fun _ => .ok _) fun hout => ?_) fun _ => .ite (fun _ => .ok _) fun _ => .ok _
      split at ht
      · cases ht
      · have := hs.trk _ _ ht
        omega
  refine .ite (fun _ => ?_) fun _ => ?_
  · unfold mergeContainer
    refine .bind (varintdecode_returns _) fun p _ => ?_
    exact .ite (fun _ => .err _) fun _ => .ite (fun _ => .ok _) fun _ => .ok _
  refine .ite (fun _ => .ok _) fun _ => .ite (fun _ => .ok _) fun _ => ?_
  refine .ite (fun ht => ?_) fun _ => ?_
  · unfold mergeRegexp
    refine .bind (readString_returns (hobj (.inr (.inr ht)))) fun p hp => ?_
    obtain ⟨off, str⟩ := p
    refine .bind (readString_returns fun he => ?_) fun p _ => .ok _
    obtain ⟨h1, h2, h3⟩ := readString_end hp
    refine hno (.inr (.inr (.inr (.inr (.inr ⟨by rw [ht]; rfl, h3 ?_⟩)))))
    have := congrArg List.length he
    rw [List.length_drop, List.length_nil] at this
    rw [List.length_drop] at h2 ⊢
    omega
  refine .ite (fun ht => ?_) fun _ => ?_
  · unfold mergeObject
    refine .bind (readString_returns (hobj (ht.elim .inl fun h => .inr (.inl h)))) fun p hp => ?_
    obtain ⟨off, str⟩ := p
    dsimp only
    split <;> exact .ok _
  exact .ite (fun _ => .err _) fun _ => .err _

end

/-- ... nor does it look at what lies behind the document. -/
theorem mergeTag_slack {s : LState} {dbuf : Bytes} {dd : Bool} {b : UInt8} (hb : dbuf[s.didx]? = some b)
    (hc : ¬ CutShort dbuf) (slack slack' : Bytes) : mergeTag s dbuf slack dd b = mergeTag s dbuf slack' dd b := by
  have hn := and_not_track b
  have hno : ¬ CutAt dbuf s.didx (b.toNat % 128) := fun h => hc ⟨_, _, hb, h⟩
  rw [← hn] at hno
  have hcut : ∀ n, s.didx + n ≤ dbuf.length → cutCap dbuf slack s.didx (s.didx + n) =
      cutCap dbuf slack' s.didx (s.didx + n) := by
    intro n h
    rw [cutCap_in (by omega) h, cutCap_in (by omega) h]
  unfold mergeTag
  dsimp only
  generalize b &&& ~~~ trackFlag = tag at hn hno
  have step : ∀ {α : Type} {p : Prop} [Decidable p] {a b a' b' : α}, (p → a = a') → b = b' →
      (if p then a else b) = (if p then a' else b') := by
    intro α p _ a b a' b' h1 h2
    split
    · exact h1 (by assumption)
    · exact h2
  refine step (fun _ => rfl) (step (fun _ => rfl) (step (fun _ => rfl) (step (fun ht => ?_) (step (fun ht => ?_)
    (step (fun ht => ?_) (step (fun ht => ?_) rfl))))))
  · subst ht
    rw [hcut 5 (Nat.le_of_not_lt fun h => hno (.inl ⟨rfl, h⟩))]
  · subst ht
    rw [hcut 9 (Nat.le_of_not_lt fun h => hno (.inr (.inl ⟨rfl, h⟩)))]
  · subst ht
    rw [hcut 17 (Nat.le_of_not_lt fun h => hno (.inr (.inr (.inl ⟨rfl, h⟩))))]
  · subst ht
    rw [hcut 2 (Nat.le_of_not_lt fun h => hno (.inr (.inr (.inr (.inl ⟨rfl, h⟩)))))]

/-! ### The loop -/

theorem LInside.move {s : LState} (hs : LInside s) {m : Moved} (hm : MovedInside s.mbuf.length m) (cap top : Nat)
    (rest : List Nat) : LInside (s.move cap top rest m) ∧ s.didx + 1 ≤ (s.move cap top rest m).didx := by
  have hmb : (s.move cap top rest m).mbuf.length = s.mbuf.length + m.out.length := by
    show (setFlag _ _).length = _
    rw [setFlag_length, List.length_append]
  have hle : ∀ {o}, o < s.mbuf.length → o < (s.move cap top rest m).mbuf.length := fun h => by omega
  refine ⟨⟨by have := hs.len; omega, fun k o h => hle (hm.str k o h), fun k o h => hle (hm.obj k o h), ?_⟩, ?_⟩
  · intro o p hop
    unfold LState.move at hop
    dsimp only at hop
    split at hop
    · rw [idxLookup] at hop
      split at hop
      · cases hop; exact hle hm.idx
      · exact hle (hs.trk o p hop)
    · exact hle (hs.trk o p hop)
  · have := hm.adv
    show s.didx + 1 ≤ s.didx + m.adv
    omega

/-- The loop ends, with or without an error. -/
theorem mergeLoop_returns {c : MCfg} {dbuf slack : Bytes} {cap : Nat} (hc : ¬ CutShort dbuf) (fuel : Nat) (s : LState)
    (hs : LInside s) (hf : dbuf.length ≤ s.didx + fuel) : Returns (mergeLoop c dbuf slack cap fuel s).1 := by
  induction fuel generalizing s with
  | zero =>
    rw [mergeLoop, if_neg (by omega)]
    exact .ok _
  | succ fuel ih =>
    rw [mergeLoop]
    split
    · exact .ok _
    · next b hb =>
      split
      · exact .ok _
      · next top rest hp =>
        split
        · next e he => exact fun e' h => by cases h; exact hs.returns hb hc e he
        · next m hm =>
          obtain ⟨h1, h2⟩ := hs.move (hs.tag hm) cap top rest
          exact ih _ h1 (by omega)

/-- ... and leaves tables with offsets inside the buffer. -/
theorem mergeLoop_inside {c : MCfg} {dbuf slack : Bytes} {cap : Nat} (fuel : Nat) (s f : LState) {r : Res Unit}
    (hs : LInside s) (h : mergeLoop c dbuf slack cap fuel s = (r, f)) : LInside f ∧ s.mbuf.length ≤ f.mbuf.length := by
  refine ⟨?_, mergeLoop_len fuel s f h⟩
  induction fuel generalizing s with
  | zero =>
    rw [mergeLoop] at h
    split at h <;> cases h <;> exact hs
  | succ fuel ih =>
    rw [mergeLoop] at h
    split at h
    · cases h; exact hs
    · split at h
      · cases h; exact hs
      · split at h
        · cases h; exact hs
        · next m hm => exact ih _ (hs.move (hs.tag hm) cap _ _).1 h

/-- The same state, apart from what the bytes of the buffer are. -/
structure LAlike (s s' : LState) : Prop where
  didx : s.didx = s'.didx
  len : s.mbuf.length = s'.mbuf.length
  stack : s.stack = s'.stack
  trackIdxs : s.trackIdxs = s'.trackIdxs
  trackTable : s.trackTable = s'.trackTable
  str : s.strTable = s'.strTable
  obj : s.objTable = s'.objTable

theorem LAlike.tag {s s' : LState} (h : LAlike s s') (dbuf slack : Bytes) (dd : Bool) (b : UInt8) :
    mergeTag s dbuf slack dd b = mergeTag s' dbuf slack dd b := by
  obtain ⟨d, m, o, st, ti, tt, str, obj⟩ := s
  obtain ⟨d', m', o', st', ti', tt', str', obj'⟩ := s'
  obtain ⟨h1, h2, h3, h4, h5, h6, h7⟩ := h
  dsimp only at h1 h2 h3 h4 h5 h6 h7
  subst h1 h3 h4 h5 h6 h7
  unfold mergeTag mergeString mergeOffset mergeContainer mergeRegexp mergeObject Moved.copy LState.mrgIdx
  dsimp only
  rw [h2]

/-- Neither the memory behind the document, nor the capacity, nor the bytes in the buffer matter. -/
theorem mergeLoop_alike {c : MCfg} {dbuf : Bytes} (hc : ¬ CutShort dbuf) {slack slack' : Bytes} {cap cap' : Nat}
    (fuel : Nat) (s s' : LState) (h : LAlike s s') :
    (mergeLoop c dbuf slack cap fuel s).1 = (mergeLoop c dbuf slack' cap' fuel s').1 ∧
    LAlike (mergeLoop c dbuf slack cap fuel s).2 (mergeLoop c dbuf slack' cap' fuel s').2 ∧
    (s.mbuf = s'.mbuf →
      (mergeLoop c dbuf slack cap fuel s).2.mbuf = (mergeLoop c dbuf slack' cap' fuel s').2.mbuf) := by
  induction fuel generalizing s s' with
  | zero =>
    rw [mergeLoop, mergeLoop, h.didx]
    split <;> exact ⟨rfl, h, id⟩
  | succ fuel ih =>
    rw [mergeLoop, mergeLoop, ← h.didx, ← h.stack]
    split
    · exact ⟨rfl, h, id⟩
    · next b hb =>
      split
      · exact ⟨rfl, h, id⟩
      · next top rest hp =>
        rw [← h.tag, mergeTag_slack hb hc slack' slack]
        split
        · exact ⟨rfl, h, id⟩
        · next m hm =>
          have hmv : LAlike (s.move cap top rest m) (s'.move cap' top rest m) := by
            refine ⟨?_, ?_, rfl, ?_, ?_, rfl, rfl⟩
            · show s.didx + m.adv = s'.didx + m.adv
              rw [h.didx]
            · show (setFlag _ _).length = (setFlag _ _).length
              rw [setFlag_length, setFlag_length, List.length_append, List.length_append, h.len]
            · show (if _ then _ else _) = (if _ then _ else _)
              rw [h.trackIdxs, h.didx]
            · show (if _ then _ else _) = (if _ then _ else _)
              rw [h.trackIdxs, h.didx, h.trackTable]
          obtain ⟨i1, i2, i3⟩ := ih _ _ hmv
          refine ⟨i1, i2, fun he => i3 ?_⟩
          show setFlag _ _ = setFlag _ _
          rw [he]

/-! ### `Append` -/

theorem buildTrack_returns (buf : Bytes) (fuel idx : Nat) (keys : List Nat) (hf : buf.length ≤ idx + fuel) :
    Returns (buildTrack buf fuel idx keys) := by
  induction fuel generalizing idx keys with
  | zero => rw [buildTrack, if_neg (by omega)]; exact .ok _
  | succ fuel ih =>
    rw [buildTrack]
    split
    · exact .ok _
    · next b hb =>
      dsimp only
      have hstep : ∀ tag, Returns (trackStep buf idx tag) ∧ ∀ o i, trackStep buf idx tag = .ok (o, i) → idx + 1 ≤ i := by
        intro tag
        unfold trackStep
        constructor
        · refine .ite (fun _ => .ok _) fun _ => .ite (fun _ => .bind (varintdecode_returns _) fun _ _ => .ok _) fun _ => ?_
          refine .ite (fun _ => .ok _) fun _ => .ite (fun _ => .ok _) fun _ => .ite (fun _ => .ok _) fun _ => ?_
          refine .ite (fun _ => .bind (varintdecode_returns _) fun _ _ => .ite (fun _ => .err _) fun _ =>
            .ite (fun _ => .err _) fun _ => .ok _) fun _ => ?_
          refine .ite (fun _ => .bind (varintdecode_returns _) fun _ _ => .ok _) fun _ => ?_
          refine .ite (fun _ => .bind (varintdecode_returns _) fun _ _ => .ite (fun _ => .err _) fun _ => .ok _) fun _ => ?_
          exact .ite (fun _ => .ok _) fun _ => .ite (fun _ => .err _) fun _ => .err _
        · intro o i h
          rcases ite_ok h with ⟨-, h⟩ | ⟨-, h⟩
          · cases h; omega
          rcases ite_ok h with ⟨-, h⟩ | ⟨-, h⟩
          · obtain ⟨_, -, h⟩ := Res.bind_ok.1 h
            cases h; omega
          rcases ite_ok h with ⟨-, h⟩ | ⟨-, h⟩
          · cases h; omega
          rcases ite_ok h with ⟨-, h⟩ | ⟨-, h⟩
          · cases h; omega
          rcases ite_ok h with ⟨-, h⟩ | ⟨-, h⟩
          · cases h; omega
          rcases ite_ok h with ⟨-, h⟩ | ⟨-, h⟩
          · obtain ⟨_, -, h⟩ := Res.bind_ok.1 h
            rcases ite_ok h with ⟨-, h⟩ | ⟨-, h⟩
            · cases h
            rcases ite_ok h with ⟨-, h⟩ | ⟨-, h⟩
            · cases h
            cases h; omega
          rcases ite_ok h with ⟨-, h⟩ | ⟨-, h⟩
          · obtain ⟨_, -, h⟩ := Res.bind_ok.1 h
            cases h; omega
          rcases ite_ok h with ⟨-, h⟩ | ⟨-, h⟩
          · obtain ⟨_, -, h⟩ := Res.bind_ok.1 h
            rcases ite_ok h with ⟨-, h⟩ | ⟨-, h⟩
            · cases h
            cases h; omega
          rcases ite_ok h with ⟨-, h⟩ | ⟨-, h⟩
          · cases h; omega
          rcases ite_ok h with ⟨-, h⟩ | ⟨-, h⟩ <;> cases h
      obtain ⟨h1, h2⟩ := hstep (b &&& ~~~ trackFlag)
      refine .bind h1 fun p hp => ?_
      obtain ⟨o, i⟩ := p
      exact ih _ _ (by have := h2 _ _ hp; omega)

theorem expectedElements_returns {c : MCfg} {b : Bytes} (h : c.keepFlat = true → 2 ≤ b.length) :
    Returns (expectedElements c b) := by
  unfold expectedElements
  refine .ite (fun hk => ?_) fun _ => .ok _
  match b, h hk with
  | b0 :: b1 :: rest, _ =>
    refine .bind (.ok _) fun _ _ => .bind (.ok _) fun _ _ => ?_
    refine .ite (fun _ => .bind (varintdecode_returns _) fun _ _ => .ok _) fun _ => ?_
    refine .ite (fun _ => .bind (varintdecode_returns _) fun _ _ => .ok _) fun _ => ?_
    exact .ite (fun _ => .ok _) fun _ => .ok _

theorem readHeader_returns (b : Bytes) : Returns (readHeader b) := by
  intro e h
  by_cases hl : b.length ≤ 5
  · rw [readHeader_short hl] at h; cases h; exact ⟨_, rfl⟩
  obtain ⟨b0, b1, b2, b3, t, c, r, rfl⟩ := long_cases (Nat.lt_of_not_le hl)
  rw [readHeader_cons] at h
  split at h
  · cases h; exact ⟨_, rfl⟩
  split at h
  · split at h
    · cases h
    · next hv => cases h; exact varintdecode_returns _ _ hv
  · cases h; exact ⟨_, rfl⟩

/-- Finding the body does not crash if the header fits and the size given by zlib is reasonable. -/
theorem mergeBody_returns {cs : Codecs} {b : Bytes} (hl : b.length < 2 ^ 63) (hh : HeaderFits b) (hz : SaneZlibSize b) :
    Returns (mergeBody cs b) := by
  unfold mergeBody
  refine .bind (readHeader_returns b) fun h hr => ?_
  obtain ⟨ver, dt, v, rest, hd, rfl⟩ := readHeader_ok hr
  have heq := hd.eq
  have hm : (magicOf ver).length = 4 := by unfold magicOf; split <;> rfl
  have hvr : b.drop 5 = v ++ rest := by
    rw [heq, show (5 : Nat) = (magicOf ver).length + 1 by omega, ← List.drop_drop, List.drop_left]; rfl
  have hlen : b.length = 5 + v.length + rest.length := by rw [heq]; simp [hm]; omega
  have hg := hh v rest hvr hd.varint
  have hlo : wrapInt (headerSize + (Head.hdr ver dt v).suffixSize) = ((5 + v.length + groups v : Nat) : Int) := by
    show wrapInt (((5 : Nat) : Int) + wrapInt (sgn (groups v) + v.length)) = _
    have h1 : wrapInt ((groups v : Int) + v.length) = groups v + v.length := wrapInt_small (by omega) (by omega)
    rw [sgn_small (by omega), h1, wrapInt_small (by omega) (by omega)]
    push_cast; omega
  dsimp only
  rw [hlo, if_neg (by omega), Int.toNat_natCast]
  split
  · next comp hc =>
    intro e he
    rcases decompress_error he with ⟨er, rfl⟩ | ⟨l, m, rfl, rfl, u, rest', hu1, hu2, hu3, hu4⟩
    · exact ⟨er, rfl⟩
    · exfalso
      have h3 := documentDecompressor_zlib hc
      have h3 : dt = 3 := h3
      have h15 := hd.ver15
      have := hz ⟨UInt8.ofNat (ver + 16 * dt), by
          rw [heq, List.getElem?_append_right (by omega), hm]; rfl, by
          rw [UInt8.toNat_ofNat']; omega⟩ v rest hvr hd.varint u rest' (by
            rw [← hu1, show 5 + v.length + groups v = 5 + (v.length + groups v) by omega,
              ← List.drop_drop, hvr, ← List.drop_drop, List.drop_left]) hu2
      rw [sgn_small (by omega)] at hu4; omega
  · exact .ok _

/-- The tables of the merger point into its buffer, and there is room for the length. -/
structure MInside (s : MState) : Prop where
  inited : s.inited = true
  len : 12 ≤ s.buf.length
  room : s.lenOffset + 5 ≤ s.buf.length
  str : ∀ k o, mapLookup k s.strTable = some o → o < s.buf.length
  obj : ∀ k o, mapLookup k s.objTable = some o → o < s.buf.length

/-- Not started, or so. -/
def MInside? (s : MState) : Prop := s.inited = true → MInside s

theorem initMerger_inside {c : MCfg} {s s0 : MState} (hs : MInside? s) (h : initMerger c s = .ok s0) :
    MInside s0 ∧ s0.length = s.length := by
  unfold initMerger at h
  split at h
  · next hi => cases h; exact ⟨hs hi, rfl⟩
  · next hi =>
    split at h
    · cases h
    · dsimp only at h
      split at h
      · cases h
      · next tags ht =>
        cases h
        have hmag : (if c.ver < 3 then putUint32 magicHeaderBytes else putUint32 magicHeaderBytesHighBit).length = 4 := by
          split <;> rfl
        have htags : 1 ≤ tags.length := by
          cases hl : c.topLevel <;> rw [hl] at ht <;> cases ht <;> decide
        refine ⟨⟨rfl, ?_, ?_, ?_, ?_⟩, rfl⟩
        · show 12 ≤ List.length (_ ++ List.replicate 5 typePAD)
          simp only [List.length_append, hmag, List.length_replicate, List.length_cons, List.length_nil]
          omega
        · show List.length _ + 5 ≤ List.length (_ ++ List.replicate 5 typePAD)
          simp only [List.length_append, List.length_replicate]
          exact Nat.le_refl _
        · intro k o h; cases h
        · intro k o h; cases h

theorem initMerger_returns (c : MCfg) (s : MState) : Returns (initMerger c s) := by
  unfold initMerger
  refine .ite (fun _ => .ok _) fun _ => .ite (fun _ => .err _) fun _ => ?_
  dsimp only
  split
  · exact .err _
  · exact .ok _

/-- The state in which the loop begins. -/
theorem MInside.start {s : MState} (hs : MInside s) (off : Nat) (n : Int) (keys : List Nat) :
    LInside { didx := off, mbuf := s.buf, old := s.buf, stack := [n.toNat], trackIdxs := keys, trackTable := [],
              strTable := s.strTable, objTable := s.objTable } :=
  ⟨hs.len, hs.str, hs.obj, fun o p h => by cases h⟩

theorem MInside.items {s : MState} (hs : MInside s) {c : MCfg} {body extra : Bytes} {cap : Nat} {keys : List Nat}
    (hc : ¬ CutShort body) (hk : c.keepFlat = true → 2 ≤ body.length) :
    Returns (mergeItems c body extra cap keys s).1 := by
  unfold mergeItems
  split
  · next e he => exact fun e' h => by cases h; exact expectedElements_returns hk e he
  · next n off _ =>
    split
    · exact .err _
    · split
      · exact .ok _
      · next e l hl =>
        intro e' h
        cases h
        exact mergeLoop_returns hc (body.length + 1) _ (hs.start off n keys) (by dsimp only; omega) e (by rw [hl])

theorem MInside.items_ok {s s' : MState} (hs : MInside s) {c : MCfg} {body extra : Bytes} {cap : Nat} {keys : List Nat}
    {r : Unit} (h : mergeItems c body extra cap keys s = (.ok r, s')) : MInside s' := by
  unfold mergeItems at h
  split at h
  · cases h
  · next n off _ =>
    split at h
    · cases h
    · split at h
      · next l hl =>
        cases h
        obtain ⟨h1, h2⟩ := mergeLoop_inside _ _ _ (hs.start off n keys) hl
        exact ⟨hs.inited, h1.len, Nat.le_trans hs.room h2, h1.str, h1.obj⟩
      · cases h

theorem MInside?.append {s : MState} (hs : MInside? s) {c : MCfg} {cs : Codecs} {b : Bytes} (h : Appendable c cs b)
    (extra : Bytes) (cap : Nat) : Returns (mergeAppend c cs extra cap b s).1 := by
  unfold mergeAppend
  split
  · next e he => exact fun e' h => by cases h; exact initMerger_returns c s e he
  · next s0 h0 =>
    obtain ⟨hs0, -⟩ := initMerger_inside hs h0
    split
    · exact .err _
    · split
      · next e he => exact fun e' h' => by cases h'; exact mergeBody_returns h.size h.header h.zlib e he
      · next body hb =>
        split
        · next e he => exact fun e' h' => by cases h'; exact buildTrack_returns _ _ _ _ (by omega) e he
        · next keys hk =>
          have := hs0.items (c := c) (extra := extra) (cap := cap) (keys := keys) (h.whole body hb) fun hk => h.flat hk body hb
          split
          · next e s' he =>
            rw [he] at this
            exact fun e' h' => by cases h'; exact this e rfl
          · exact .ok _

theorem MInside?.append_ok {s s' : MState} (hs : MInside? s) {c : MCfg} {cs : Codecs} {b extra : Bytes} {cap n : Nat}
    (h : mergeAppend c cs extra cap b s = (.ok n, s')) : MInside s' := by
  obtain ⟨s0, body, keys, r, h1, h2, h3, h4, h5⟩ := mergeAppend_ok h
  exact (initMerger_inside hs h1).1.items_ok h4

theorem MInside?.all {c : MCfg} {cs : Codecs} {ks : List MCall} {s s' : MState} {ns : List Nat} (hs : MInside? s)
    (h : appendAll c cs ks s = some (ns, s')) : MInside? s' := by
  induction ks generalizing s ns with
  | nil => cases h; exact hs
  | cons k ks ih =>
    rw [appendAll] at h
    split at h
    · next n s1 h1 =>
      cases h2 : appendAll c cs ks s1 with
      | none => rw [h2] at h; cases h
      | some r => rw [h2] at h; cases h; exact ih (fun _ => hs.append_ok h1) h2
    · cases h

/-! ### `Finish` -/

theorem mergeDocType_returns (c : MCfg) (comp : Compressor) : Returns (mergeDocType c comp) := by
  cases comp with
  | snappy inc => cases inc; exact .err _; exact .ok _
  | zlib l => exact .ite (fun _ => .err _) fun _ => .ok _
  | zstd l => exact .err _

theorem MInside?.finish {s : MState} (hs : MInside? s) {c : MCfg} {cs : Codecs} {slack : Bytes}
    (hl : s.length < 2 ^ 35)
    (hr : ∀ comp x, c.compression = some comp → Returns (compress cs comp x))
    (hz : ∀ comp x z, c.compression = some comp → compress cs comp x = .ok z → z.length ≤ x.length + slack.length) :
    Returns (mergeFinish c cs slack s).1 := by
  unfold mergeFinish
  split
  · next e he => exact fun e' h => by cases h; exact initMerger_returns c s e he
  · next s0 h0 =>
    obtain ⟨hs0, hl0⟩ := initMerger_inside hs h0
    split
    · exact .ok _
    · have h5 := varint_length_le (k := 5) (n := s0.length) (by omega) (by omega)
      have hroom := hs0.room
      have hlen := hs0.len
      dsimp only
      unfold putLength
      rw [if_pos (by omega)]
      dsimp only
      generalize hbuf : s0.buf.take s0.lenOffset ++ varint s0.length ++
        s0.buf.drop (s0.lenOffset + (varint s0.length).length) = buf
      have hbl : buf.length = s0.buf.length := by
        rw [← hbuf, List.length_append, List.length_append, List.length_take, List.length_drop]; omega
      split
      · exact .ok _
      · next comp hcomp =>
        have hcc : c.compression = some comp := by
          unfold mergeCompresses at hcomp
          split at hcomp
          · exact hcomp
          · cases hcomp
        split
        · next e he => exact fun e' h => by cases h; exact hr comp _ hcc e he
        · next z hz' =>
          have := hz comp _ z hcc hz'
          rw [List.length_drop] at this
          unfold placeCompressed
          rw [if_neg (by omega)]
          have fin : ∀ buf', Returns (match mergeDocType c comp with
              | .error e => ((.error e : Res Bytes), ({ s0 with finished := true, buf := buf' } : MState))
              | .ok dt => (.ok (buf'.modify 4 (· ||| (UInt8.ofNat dt <<< 4))),
                  { s0 with finished := true, buf := buf'.modify 4 (· ||| (UInt8.ofNat dt <<< 4)) })).1 := by
            intro buf'
            split
            · next e he => exact fun e' h => by cases h; exact mergeDocType_returns c comp e he
            · exact .ok _
          split
          · next e he => split at he <;> cases he
          · exact fin _

/-! ### What `Append` depends on -/

theorem mergeLoop_old {c : MCfg} {dbuf slack : Bytes} {cap : Nat} (fuel : Nat) (s : LState) :
    (mergeLoop c dbuf slack cap fuel s).2.old.length = s.old.length := by
  induction fuel generalizing s with
  | zero => rw [mergeLoop]; split <;> rfl
  | succ fuel ih =>
    rw [mergeLoop]
    split
    · rfl
    · split
      · rfl
      · split
        · rfl
        · rw [ih]
          show (if _ then _ else _ : Bytes).length = _
          split
          · exact setFlag_length _ _
          · rfl

/-- The same merger, apart from what the bytes of its buffer are. -/
structure MAlike (s s' : MState) : Prop where
  len : s.buf.length = s'.buf.length
  same : { s with buf := [] } = { s' with buf := [] }

theorem MAlike.refl (s : MState) : MAlike s s := ⟨rfl, rfl⟩

theorem MAlike.init {c : MCfg} {s s' : MState} (h : MAlike s s') :
    (∃ e, initMerger c s = .error e ∧ initMerger c s' = .error e) ∨
    (∃ t t', initMerger c s = .ok t ∧ initMerger c s' = .ok t' ∧ MAlike t t' ∧ (s.buf = s'.buf → t = t')) := by
  obtain ⟨b, st, ot, l, lo, i, f⟩ := s
  obtain ⟨b', st', ot', l', lo', i', f'⟩ := s'
  obtain ⟨h1, h2⟩ := h
  injection h2 with _ h3 h4 h5 h6 h7 h8
  dsimp only at h1 h3 h4 h5 h6 h7 h8
  subst h3 h4 h5 h6 h7 h8
  unfold initMerger
  dsimp only
  split
  · exact .inr ⟨_, _, rfl, rfl, ⟨h1, rfl⟩, fun h => by rw [h]⟩
  · split
    · exact .inl ⟨_, rfl, rfl⟩
    · split
      · exact .inl ⟨_, rfl, rfl⟩
      · exact .inr ⟨_, _, rfl, rfl, ⟨rfl, rfl⟩, fun _ => rfl⟩

theorem MAlike.items {c : MCfg} {s s' : MState} (h : MAlike s s') {body : Bytes} (hc : ¬ CutShort body)
    (extra extra' : Bytes) (cap cap' : Nat) (keys : List Nat) :
    (mergeItems c body extra cap keys s).1 = (mergeItems c body extra' cap' keys s').1 ∧
    MAlike (mergeItems c body extra cap keys s).2 (mergeItems c body extra' cap' keys s').2 ∧
    (s = s' → (∃ r, (mergeItems c body extra cap keys s).1 = .ok r) →
      (mergeItems c body extra cap keys s).2 = (mergeItems c body extra' cap' keys s').2) := by
  obtain ⟨b, st, ot, l, lo, i, f⟩ := s
  obtain ⟨b', st', ot', l', lo', i', f'⟩ := s'
  obtain ⟨h1, h2⟩ := h
  injection h2 with _ h3 h4 h5 h6 h7 h8
  dsimp only at h1 h3 h4 h5 h6 h7 h8
  subst h3 h4 h5 h6 h7 h8
  unfold mergeItems
  split
  · exact ⟨rfl, ⟨h1, rfl⟩, fun he _ => he⟩
  · next n off _ =>
    split
    · exact ⟨rfl, ⟨h1, rfl⟩, fun he _ => he⟩
    · dsimp only
      obtain ⟨a1, a2, a3⟩ := mergeLoop_alike (c := c) (slack := extra) (slack' := extra') (cap := cap) (cap' := cap') hc
        (body.length + 1)
        { didx := off, mbuf := b, old := b, stack := [n.toNat], trackIdxs := keys, trackTable := [],
          strTable := st, objTable := ot }
        { didx := off, mbuf := b', old := b', stack := [n.toNat], trackIdxs := keys, trackTable := [],
          strTable := st, objTable := ot } ⟨rfl, h1, rfl, rfl, rfl, rfl, rfl⟩
      have o1 := mergeLoop_old (c := c) (dbuf := body) (slack := extra) (cap := cap) (body.length + 1)
        { didx := off, mbuf := b, old := b, stack := [n.toNat], trackIdxs := keys, trackTable := [],
          strTable := st, objTable := ot }
      have o2 := mergeLoop_old (c := c) (dbuf := body) (slack := extra') (cap := cap') (body.length + 1)
        { didx := off, mbuf := b', old := b', stack := [n.toNat], trackIdxs := keys, trackTable := [],
          strTable := st, objTable := ot }
      generalize mergeLoop c body extra cap _ _ = r1 at a1 a2 a3 o1 ⊢
      generalize mergeLoop c body extra' cap' _ _ = r2 at a1 a2 a3 o2 ⊢
      obtain ⟨r, l1⟩ := r1
      obtain ⟨r', l2⟩ := r2
      dsimp only at a1 a2 a3 o1 o2 ⊢
      subst a1
      cases r with
      | error e =>
        refine ⟨rfl, ⟨by dsimp only; omega, ?_⟩, fun _ hr => ?_⟩
        · dsimp only; rw [a2.str, a2.obj]
        · obtain ⟨_, hr⟩ := hr; cases hr
      | ok u =>
        refine ⟨rfl, ⟨a2.len, ?_⟩, fun hs _ => ?_⟩
        · dsimp only; rw [a2.str, a2.obj]
        · injection hs with hb
          dsimp only
          rw [a3 hb, a2.str, a2.obj]

/-- Neither the memory behind the document nor capacities matter. -/
theorem MAlike.append {c : MCfg} {cs : Codecs} {s s' : MState} (h : MAlike s s') {b : Bytes}
    (hc : ∀ body, mergeBody cs b = .ok body → ¬ CutShort body) (extra extra' : Bytes) (cap cap' : Nat) :
    (mergeAppend c cs extra cap b s).1 = (mergeAppend c cs extra' cap' b s').1 ∧
    MAlike (mergeAppend c cs extra cap b s).2 (mergeAppend c cs extra' cap' b s').2 ∧
    (s = s' → (∃ n, (mergeAppend c cs extra cap b s).1 = .ok n) →
      (mergeAppend c cs extra cap b s).2 = (mergeAppend c cs extra' cap' b s').2) := by
  unfold mergeAppend
  rcases h.init (c := c) with ⟨e, h1, h2⟩ | ⟨t, t', h1, h2, ht, heq⟩
  · rw [h1, h2]; exact ⟨rfl, h, fun he _ => he⟩
  · rw [h1, h2]
    dsimp only
    have hf : t.finished = t'.finished := by simpa using congrArg MState.finished ht.same
    have hl : t.length = t'.length := by simpa using congrArg MState.length ht.same
    rw [← hf]
    split
    · exact ⟨rfl, ht, fun he _ => heq (by rw [he])⟩
    · split
      · exact ⟨rfl, ht, fun he _ => heq (by rw [he])⟩
      · next body hb =>
        split
        · exact ⟨rfl, ht, fun he _ => heq (by rw [he])⟩
        · next keys hk =>
          obtain ⟨i1, i2, i3⟩ := ht.items (c := c) (hc body hb) extra extra' cap cap' keys
          generalize mergeItems c body extra cap keys t = r1 at i1 i2 i3 ⊢
          generalize mergeItems c body extra' cap' keys t' = r2 at i1 i2 i3 ⊢
          obtain ⟨r, l1⟩ := r1
          obtain ⟨r', l2⟩ := r2
          dsimp only at i1 i2 i3
          subst i1
          cases r with
          | error e => exact ⟨rfl, i2, fun _ hr => by obtain ⟨_, hr⟩ := hr; cases hr⟩
          | ok u =>
            dsimp only
            have : l1.length = l2.length := by simpa using congrArg MState.length i2.same
            exact ⟨by rw [this, hl], i2, fun he _ => i3 (heq (by rw [he])) ⟨_, rfl⟩⟩

/-- Rows of calls. -/
theorem MAlike.each {c : MCfg} {cs : Codecs} {ks ks' : List MCall} (hd : ks.map MCall.doc = ks'.map MCall.doc)
    (hc : ∀ k ∈ ks, ∀ body, mergeBody cs k.doc = .ok body → ¬ CutShort body) {s s' : MState} (h : MAlike s s') :
    (appendEach c cs ks s).1 = (appendEach c cs ks' s').1 ∧ MAlike (appendEach c cs ks s).2 (appendEach c cs ks' s').2 := by
  induction ks generalizing ks' s s' with
  | nil =>
    cases ks' with
    | nil => exact ⟨rfl, h⟩
    | cons => cases hd
  | cons k ks ih =>
    cases ks' with
    | nil => cases hd
    | cons k' ks' =>
      injection hd with hd1 hd2
      obtain ⟨a1, a2, -⟩ := h.append (c := c) (hc k (by simp)) k.extra k'.extra k.cap k'.cap
      obtain ⟨b1, b2⟩ := ih hd2 (fun x hx => hc x (by simp [hx])) a2
      rw [appendEach, appendEach]
      dsimp only
      rw [hd1] at a1 b1 b2 ⊢
      exact ⟨by rw [a1, b1], b2⟩

theorem appendAll_alike {c : MCfg} {cs : Codecs} {ks ks' : List MCall} (hd : ks.map MCall.doc = ks'.map MCall.doc)
    (hc : ∀ k ∈ ks, ∀ body, mergeBody cs k.doc = .ok body → ¬ CutShort body) (s : MState) :
    appendAll c cs ks s = appendAll c cs ks' s := by
  induction ks generalizing ks' s with
  | nil =>
    cases ks' with
    | nil => rfl
    | cons => cases hd
  | cons k ks ih =>
    cases ks' with
    | nil => cases hd
    | cons k' ks' =>
      injection hd with hd1 hd2
      obtain ⟨a1, -, a3⟩ := (MAlike.refl s).append (c := c) (hc k (by simp)) k.extra k'.extra k.cap k'.cap
      rw [appendAll, appendAll, ← hd1]
      generalize mergeAppend c cs k.extra k.cap k.doc s = r1 at a1 a3 ⊢
      generalize mergeAppend c cs k'.extra k'.cap k.doc s = r2 at a1 a3 ⊢
      obtain ⟨r, s1⟩ := r1
      obtain ⟨r', s2⟩ := r2
      dsimp only at a1 a3
      subst a1
      cases r with
      | error e => rfl
      | ok n =>
        dsimp only
        rw [a3 rfl ⟨_, rfl⟩, ih hd2 (fun x hx => hc x (by simp [hx]))]

/-- If the compressed data are not longer than the data, the memory behind the buffer is not looked at. -/
theorem mergeFinish_slack {c : MCfg} {cs : Codecs} {s : MState}
    (hs : MInside? s)
    (hz : ∀ comp x z, c.compression = some comp → compress cs comp x = .ok z → z.length ≤ x.length)
    (slack slack' : Bytes) : mergeFinish c cs slack s = mergeFinish c cs slack' s := by
  unfold mergeFinish
  split
  · rfl
  · next s0 h0 =>
    obtain ⟨hs0, -⟩ := initMerger_inside hs h0
    split
    · rfl
    · dsimp only
      cases hp : putLength s0.buf s0.lenOffset s0.length with
      | error e => rfl
      | ok buf =>
        have hbl : buf.length = s0.buf.length := by
          unfold putLength at hp
          split at hp
          · cases hp
            rw [List.length_append, List.length_append, List.length_take, List.length_drop]; omega
          · cases hp
        have hlen := hs0.len
        dsimp only
        split
        · rfl
        · next comp hcomp =>
          have hcc : c.compression = some comp := by
            unfold mergeCompresses at hcomp
            split at hcomp
            · exact hcomp
            · cases hcomp
          split
          · rfl
          · next z hz' =>
            have hle := hz comp _ z hcc hz'
            rw [List.length_drop] at hle
            have : placeCompressed comp buf slack z = placeCompressed comp buf slack' z := by
              unfold placeCompressed
              rw [if_neg (show ¬ z.length + 6 > buf.length + slack.length by omega),
                if_neg (show ¬ z.length + 6 > buf.length + slack'.length by omega),
                show z.length - (buf.length - 6) = 0 by omega, List.take_zero, List.take_zero]
            rw [this]

end Sereal
