import Verif.Proof.Api
import Verif.Spec.Doc
/-
Failure and cost analysis of the API functions.
-/
namespace Sereal

theorem wrapInt_small {i : Int} (h1 : -2 ^ 63 ≤ i) (h2 : i < 2 ^ 63) : wrapInt i = i := by
  unfold wrapInt
  rw [BitVec.toInt_ofInt]
  unfold Int.bmod
  dsimp only
  split <;> omega

theorem wrapInt_over {i : Int} (h1 : 2 ^ 63 ≤ i) (h2 : i < 2 ^ 64) : wrapInt i = i - 2 ^ 64 := by
  unfold wrapInt
  rw [BitVec.toInt_ofInt]
  unfold Int.bmod
  dsimp only
  split <;> omega

theorem wrapInt_range (i : Int) : -2 ^ 63 ≤ wrapInt i ∧ wrapInt i < 2 ^ 63 := by
  unfold wrapInt
  rw [BitVec.toInt_ofInt]
  unfold Int.bmod
  dsimp only
  split <;> omega

/-- What readHeader knows about the length field. -/
theorem checkHeader_ok {b : Bytes} {hd : Hdr} (h : checkHeader b = .ok hd) :
    5 < b.length ∧ 1 ≤ hd.version ∧ hd.version ≤ 4 ∧ (∃ t : UInt8, b[4]? = some t ∧ hd.doctype = (t >>> 4).toNat ∧
      hd.version = (t &&& 0x0f).toNat) ∧
    ∃ v rest, b.drop 5 = v ++ rest ∧ IsVarint v ∧ v.length ≤ 10 ∧ hd.suffixStart = 5 + v.length ∧
      hd.suffixSize = wrapInt (sgn (groups v) + v.length) := by
  unfold checkHeader at h
  obtain ⟨hd', h1, h2⟩ := Res.bind_ok.1 h
  split at h2
  case isFalse => cases h2
  case isTrue hv =>
    cases h2
    rw [readHeader_eq] at h1; unfold readHeader' at h1
    split at h1
    · cases h1
    · rename_i hlen
      simp only [headerSize] at hlen
      dsimp only at h1
      split at h1
      · cases h1
      · split at h1
        · cases h1
        · obtain ⟨⟨ln, sz⟩, h3, h4⟩ := Res.bind_ok.1 h1
          dsimp only at h4
          cases h4
          obtain ⟨v, rest, h5, h6, h7, h8, h9⟩ := varintdecode_ok h3
          have h4 : b[4]? = some b[4]! := by
            rw [List.getElem!_eq_getElem?_getD, List.getElem?_eq_getElem (by omega)]; rfl
          dsimp only at hv
          refine ⟨by omega, by dsimp only; omega, by dsimp only; omega, ⟨b[4]!, h4, rfl, rfl⟩, v, rest, h5, h6, h7, by simp [headerSize, h8], ?_⟩
          dsimp only
          rw [h9, h8]; rfl

theorem checkHeader_error {b : Bytes} {e : Exn} (h : checkHeader b = .error e) : ∃ er, e = .err er := by
  unfold checkHeader at h
  rcases Res.bind_error.1 h with h | ⟨hd, h1, h2⟩
  · rw [readHeader_eq] at h; unfold readHeader' at h
    split at h
    · cases h; exact ⟨_, rfl⟩
    · dsimp only at h
      split at h
      · cases h; exact ⟨_, rfl⟩
      · split at h
        · cases h; exact ⟨_, rfl⟩
        · rcases Res.bind_error.1 h with h | ⟨⟨ln, sz⟩, h1, h2⟩
          · exact ⟨_, varintdecode_error h⟩
          · cases h2
  · split at h2
    · cases h2
    · cases h2; exact ⟨_, rfl⟩

theorem documentDecompressor_error {v t : Nat} {e : Exn} (h : documentDecompressor v t = .error e) :
    ∃ er, e = .err er := by
  unfold documentDecompressor at h
  repeat' split at h
  all_goals first
    | cases h; exact ⟨_, rfl⟩
    | cases h

/-- The zlib branch is only reached for document type 3. -/
theorem documentDecompressor_zlib {v t : Nat} {l : Int}
    (h : documentDecompressor v t = .ok (some (.zlib l))) : t = 3 := by
  unfold documentDecompressor at h
  repeat' split at h
  all_goals first
    | (simp only [serealZlib] at *; assumption)
    | cases h

theorem decompress_error {cs : Codecs} {c : Compressor} {b : Bytes} {e : Exn}
    (h : decompress cs c b = .error e) :
    (∃ er, e = .err er) ∨ (∃ l m, c = .zlib l ∧ e = .crash m ∧ ∃ v rest, b = v ++ rest ∧ IsVarint v ∧
      v.length ≤ 10 ∧ (sgn (groups v) < 0 ∨ sgn (groups v) > 2 ^ 48)) := by
  have hl : ∀ {α : Type} {x : Except Nat α} {e : Exn}, liftCodec x = .error e → ∃ er, e = .err er := by
    intro α x e h
    cases x <;> simp [liftCodec] at h
    exact ⟨_, h.symm⟩
  rw [decompress_eq] at h; unfold decompress' at h
  cases c with
  | snappy inc =>
    dsimp only at h
    split at h
    · rcases Res.bind_error.1 h with h | ⟨⟨ln, sz⟩, h1, h⟩
      · exact Or.inl ⟨_, varintdecode_error h⟩
      · dsimp only at h
        split at h
        · cases h; exact Or.inl ⟨_, rfl⟩
        · exact Or.inl (hl h)
    · exact Or.inl (hl h)
  | zstd l =>
    rcases Res.bind_error.1 h with h | ⟨⟨ln, sz⟩, h1, h⟩
    · exact Or.inl ⟨_, varintdecode_error h⟩
    · dsimp only at h
      split at h
      · cases h; exact Or.inl ⟨_, rfl⟩
      · exact Or.inl (hl h)
  | zlib l =>
    rcases Res.bind_error.1 h with h | ⟨⟨uln, usz⟩, h1, h⟩
    · exact Or.inl ⟨_, varintdecode_error h⟩
    · dsimp only at h
      rcases Res.bind_error.1 h with h | ⟨⟨ln, sz⟩, h2, h⟩
      · exact Or.inl ⟨_, varintdecode_error h⟩
      · dsimp only at h
        split at h
        · cases h; exact Or.inl ⟨_, rfl⟩
        · have h' := h
          unfold zlibDecode at h'
          rcases Res.bind_error.1 h' with h' | ⟨_, h3, h'⟩
          · exact Or.inl (hl h')
          · split at h'
            · rename_i hu
              cases h'
              obtain ⟨v, rest, h5, h6, h7, h8, h9⟩ := varintdecode_ok h1
              refine Or.inr ⟨_, _, rfl, rfl, v, rest, h5, h6, h7, ?_⟩
              unfold sgn
              rw [← h9]
              simpa [maxAlloc] using hu
            · exact Or.inl (hl h')


theorem Good.mono {L C C' cd lo : Nat} {rec : Nat → Loc → D Nat} (h : Good L C cd lo rec)
    (hC : C ≤ C') : Good L C' cd lo rec := by
  intro B i loc s h1 h2 h3 h4 h5 h6
  have hp : ∀ j, Pot L C j ≤ Pot L C' j := fun j => Nat.mul_le_mul_right _ hC
  have hp2 : ∀ j, i ≤ j → Pot L C j + (Pot L C' i - Pot L C i) ≥ Pot L C' j := by
    intro j hj
    have e : C' = C + (C' - C) := by omega
    have e1 : ∀ k, Pot L C' k = Pot L C k + (C' - C) * (L + 1 - k) := by
      intro k; unfold Pot; rw [← Nat.add_mul, ← e]
    rw [e1, e1]
    have : (C' - C) * (L + 1 - j) ≤ (C' - C) * (L + 1 - i) := Nat.mul_le_mul_left _ (by omega)
    omega
  have hi := hp i
  refine Spec.mono (h (B - (Pot L C' i - Pot L C i)) i loc s h1 h2 (by omega) h4 h5 h6) ?_ ?_
  · rintro j s' ⟨hj, hpost⟩
    have := hpost.cost
    have := hp2 j (by omega)
    exact ⟨hj, hpost.le, hpost.len, hpost.depth, by omega, hpost.frame⟩
  · intro e s' he
    exact EOk.mono he (by omega)

theorem decode_goodAny (cfg : DCfg) (buf : Bytes) (cd f lo : Nat)
    (hf : buf.length + 1 - lo + (buf.length + 1) ≤ f) :
    Good buf.length (unit0 buf.length) cd lo (decode cfg buf f) := by
  by_cases h : cd = 0
  · rw [h]; exact decode_good0 cfg buf f lo hf
  · refine Good.mono (decode_good1 cfg buf f lo (by omega) cd (by omega)) ?_
    unfold unit0 unit1
    omega

/-- Both outcomes of one decode call of the API. -/
theorem decodeCall_spec (cfg : DCfg) (buf : Bytes) (i : Nat) (ptr : Loc) (s : DState) (cd : Nat)
    (hi : i ≤ buf.length + 1) (hcd : s.copyDepth = cd) (hp : ptr.addr < s.heap.next)
    (hnil : s.heap.read ptr = .nil) :
    Spec (withTracked (decode cfg buf (fuelFor buf.length) i ptr)) s
      (fun _ s' => s'.copyDepth = cd ∧ s'.tracked = (fun _ => none) ∧
        s'.cost ≤ s.cost + (buf.length + 4) ^ 3 ∧ s'.peak ≤ max s.peak buf.length ∧
        Frame (· = ptr.addr) s.heap s'.heap)
      (fun e s' => (∀ m, e ≠ .crash m) ∧ e ≠ .fuel ∧ e ≠ unmodelled ∧
        (∀ er, e = .err er → s'.copyDepth = cd) ∧ s'.tracked = (fun _ => none) ∧
        s'.cost ≤ s.cost + (buf.length + 4) ^ 3 ∧ s'.peak ≤ max s.peak buf.length) := by
  have hbound : Pot buf.length (unit0 buf.length) i ≤ (buf.length + 4) ^ 3 := by
    have h1 : Pot buf.length (unit0 buf.length) i ≤ unit0 buf.length * (buf.length + 1) := by
      unfold Pot; exact Nat.mul_le_mul_left _ (by omega)
    have h2 : unit0 buf.length = (buf.length + 4) * (buf.length + 2) := by
      unfold unit0
      rw [Nat.mul_add, Nat.mul_add]; omega
    rw [h2] at h1
    refine Nat.le_trans h1 ?_
    rw [show (buf.length + 4) ^ 3 = (buf.length + 4) * (buf.length + 4) * (buf.length + 4) by
      rw [Nat.pow_succ, Nat.pow_succ, Nat.pow_one]]
    exact Nat.mul_le_mul (Nat.mul_le_mul_left _ (by omega)) (by omega)
  have hpk : ∀ r s', decode cfg buf (fuelFor buf.length) i ptr { s with tracked := fun _ => none } = (r, s') →
      s'.peak ≤ max s.peak buf.length := by
    intro r s' h
    have h0 := decode_peak cfg buf (fuelFor buf.length) (max s.peak buf.length) (by omega) i ptr
    have := h0 { s with tracked := fun _ => none } (by show s.peak ≤ _; omega)
    rw [h] at this
    exact this
  have key : Spec (decode cfg buf (fuelFor buf.length) i ptr) { s with tracked := fun _ => none }
      (fun _ s' => s'.copyDepth = cd ∧ s'.cost ≤ s.cost + (buf.length + 4) ^ 3 ∧
        Frame (· = ptr.addr) s.heap s'.heap)
      (fun e s' => (∀ m, e ≠ .crash m) ∧ e ≠ .fuel ∧ e ≠ unmodelled ∧
        (∀ er, e = .err er → s'.copyDepth = cd) ∧ s'.cost ≤ s.cost + (buf.length + 4) ^ 3) := by
    by_cases hi' : i ≤ buf.length
    · have := decode_goodAny cfg buf cd (fuelFor buf.length) 0 (by unfold fuelFor; omega)
        (s.cost + (buf.length + 4) ^ 3) i ptr { s with tracked := fun _ => none } (Nat.zero_le _) hi'
        (by show s.cost + _ ≤ _; omega) hcd hp hnil
      refine Spec.mono this ?_ ?_
      · rintro j s' ⟨h1, h2⟩
        have := h2.cost
        exact ⟨h2.depth, by omega, h2.frame⟩
      · intro e s' h
        exact ⟨h.crash, h.fuel, h.modelled, h.depth, h.cost⟩
    · rw [show fuelFor buf.length = (2 * buf.length + 3) + 1 from rfl, decode_succ]
      refine Spec.step (tick_apply _) (Spec.skipPad ?_ fun k b ht => ?_)
      · refine ⟨by simp, by simp, by simp [unmodelled], fun _ _ => hcd, ?_⟩
        show s.steps + 1 + s.alloc ≤ s.steps + s.alloc + _
        have : 1 ≤ (buf.length + 4) ^ 3 := Nat.pow_pos (by omega)
        omega
      · have := ht.lt; have := ht.le; omega
  unfold withTracked
  constructor
  · intro a s' h
    cases hd : decode cfg buf (fuelFor buf.length) i ptr { s with tracked := fun _ => none } with
    | mk r s1 =>
      dsimp only at h
      rw [hd] at h
      simp only [Prod.mk.injEq] at h
      obtain ⟨rfl, rfl⟩ := h
      obtain ⟨h1, h2, h3⟩ := key.1 _ _ hd
      exact ⟨h1, rfl, h2, hpk _ s1 hd, h3⟩
  · intro e s' h
    cases hd : decode cfg buf (fuelFor buf.length) i ptr { s with tracked := fun _ => none } with
    | mk r s1 =>
      dsimp only at h
      rw [hd] at h
      simp only [Prod.mk.injEq] at h
      obtain ⟨rfl, rfl⟩ := h
      obtain ⟨h1, h2, h3, h4, h5⟩ := key.2 _ _ hd
      exact ⟨h1, h2, h3, h4, rfl, h5, hpk _ s1 hd⟩


/-- The body offset computed by the API functions. -/
theorem bodyStart_eq {v : Bytes} {L : Nat} (hv : v.length ≤ 10) (hg : groups v < 2 ^ 63)
    (h : ¬ (wrapInt (headerSize + wrapInt (sgn (groups v) + v.length)) > L ∨
      wrapInt (headerSize + wrapInt (sgn (groups v) + v.length)) < 0)) :
    (wrapInt (headerSize + wrapInt (sgn (groups v) + v.length))).toNat = 5 + v.length + groups v ∧
      5 + v.length + groups v ≤ L ∧ wrapInt (sgn (groups v) + v.length) = groups v + v.length := by
  rw [sgn_small hg] at h ⊢
  simp only [headerSize] at h ⊢
  by_cases h1 : (groups v : Int) + v.length < 2 ^ 63
  · rw [wrapInt_small (by omega) h1] at h ⊢
    by_cases h2 : ((5 : Nat) : Int) + (groups v + v.length) < 2 ^ 63
    · rw [wrapInt_small (by omega) h2] at h ⊢
      omega
    · rw [wrapInt_over (by omega) (by omega)] at h
      omega
  · have h3 : wrapInt ((groups v : Int) + v.length) = groups v + v.length - 2 ^ 64 :=
      wrapInt_over (by omega) (by omega)
    rw [h3, wrapInt_small (by omega) (by omega)] at h
    omega

theorem shift4 (t : UInt8) : (t >>> 4).toNat = t.toNat / 16 := by
  revert t; apply u8_forall; set_option maxRecDepth 8000 in decide
theorem and15 (t : UInt8) : (t &&& 0x0f).toNat = t.toNat % 16 := by
  revert t; apply u8_forall; set_option maxRecDepth 8000 in decide

/-- No runtime error, no endless recursion; copyDepth is restored unless something panicked. -/
theorem unmarshalRaw_safe (cfg : DCfg) (cs : Codecs) (b : Bytes) (vh vb : Option Loc) (s : DState) (cd : Nat)
    (hsane : SaneHeaderLength b) (hzl : vb.isSome → SaneZlibSize b)
    (hzero : vh.isSome → ShortEmptyHeader b)
    (hcd : s.copyDepth = cd)
    (hh : ∀ l, vh = some l → l.addr < s.heap.next ∧ s.heap.read l = .nil)
    (hb : ∀ l, vb = some l → l.addr < s.heap.next ∧ s.heap.read l = .nil)
    (hne : ∀ l l', vh = some l → vb = some l' → l'.addr ≠ l.addr) :
    Spec (unmarshalRaw cfg cs b vh vb) s (fun _ s' => s'.copyDepth = cd)
      (fun e s' => (∀ m, e ≠ .crash m) ∧ e ≠ .fuel ∧ e ≠ unmodelled ∧
        (∀ er, e = .err er → s'.copyDepth = cd)) := by
  have he : ∀ (er : Err) (s : DState), s.copyDepth = cd → (∀ m, Exn.err er ≠ .crash m) ∧
      Exn.err er ≠ .fuel ∧ Exn.err er ≠ unmodelled ∧ (∀ er', Exn.err er = .err er' → s.copyDepth = cd) :=
    fun er s h => ⟨by simp, by simp, by simp [unmodelled], fun _ _ => h⟩
  rw [unmarshalRaw_eq]; unfold unmarshalRaw'
  refine Spec.bind ⟨fun hd s1 h => ?_, fun e s1 h => ?_⟩
  rotate_left
  · obtain ⟨h1, rfl⟩ := D.lift_error.1 h
    obtain ⟨er, rfl⟩ := checkHeader_error h1
    exact he _ _ hcd
  obtain ⟨h1, rfl⟩ := D.lift_ok.1 h
  clear h
  obtain ⟨hlen, hv1, hv4, ⟨t, ht, hdt, hver⟩, v, rest, hvr, hv, hv10, hss, hsz⟩ := checkHeader_ok h1
  have hg := hsane v rest hvr hv
  have hz0 := fun h => hzero h v rest hvr hv
  refine Spec.bind ⟨fun dc s1 h => ?_, fun e s1 h => ?_⟩
  rotate_left
  · obtain ⟨h1, rfl⟩ := D.lift_error.1 h
    obtain ⟨er, rfl⟩ := documentDecompressor_error h1
    exact he _ _ hcd
  obtain ⟨h2, rfl⟩ := D.lift_ok.1 h
  clear h
  dsimp only
  refine Spec.failIf (fun _ => he _ _ hcd) fun hbs => ?_
  rw [hsz] at hbs ⊢
  obtain ⟨hbs1, hbs2, hbs3⟩ := bodyStart_eq hv10 hg hbs
  rw [hbs1, hbs3]
  have body : ∀ s1 : DState, s1.copyDepth = cd →
      (∀ l, vb = some l → l.addr < s1.heap.next ∧ s1.heap.read l = .nil) →
      Spec (match vb with
        | some ptr => do
          let b ← match dc with
            | some c => do
              let decompBody ← D.lift (decompress cs c (b.drop (5 + v.length + groups v)))
              Pure.pure (b.take (5 + v.length + groups v) ++ decompBody)
            | none => Pure.pure b
          if hd.version = 1 then
            let _ ← withTracked (decode cfg b (fuelFor b.length) (5 + v.length + groups v) ptr)
          else
            D.failIf (5 + v.length + groups v = 0) (.crash "slice bounds out of range")
            let by_ := b.drop (5 + v.length + groups v - 1)
            let _ ← withTracked (decode cfg by_ (fuelFor by_.length) 1 ptr)
        | none => Pure.pure ()) s1 (fun _ s' => s'.copyDepth = cd)
      (fun e s' => (∀ m, e ≠ .crash m) ∧ e ≠ .fuel ∧ e ≠ unmodelled ∧
        (∀ er, e = .err er → s'.copyDepth = cd)) := by
    intro s1 hcd1 hb1
    cases vb with
    | none => exact Spec.pure hcd1
    | some ptr =>
      obtain ⟨hp1, hp2⟩ := hb1 ptr rfl
      have fin : ∀ b' : Bytes, 5 + v.length + groups v ≤ b'.length →
          Spec (if hd.version = 1 then do
            let _ ← withTracked (decode cfg b' (fuelFor b'.length) (5 + v.length + groups v) ptr)
            Pure.pure ()
          else do
            D.failIf (5 + v.length + groups v = 0) (.crash "slice bounds out of range")
            let by_ := b'.drop (5 + v.length + groups v - 1)
            let _ ← withTracked (decode cfg by_ (fuelFor by_.length) 1 ptr)
            Pure.pure ()) s1 (fun _ s' => s'.copyDepth = cd)
            (fun e s' => (∀ m, e ≠ .crash m) ∧ e ≠ .fuel ∧ e ≠ unmodelled ∧
              (∀ er, e = .err er → s'.copyDepth = cd)) := by
        intro b' hb'
        refine Spec.ite (fun _ => ?_) (fun _ => ?_)
        · refine Spec.bind (Spec.mono (decodeCall_spec cfg b' _ ptr s1 cd (by omega) hcd1 hp1 hp2) ?_ ?_)
          · intro _ s2 h; exact Spec.pure h.1
          · intro e s2 h; exact ⟨h.1, h.2.1, h.2.2.1, h.2.2.2.1⟩
        · refine Spec.failIf (fun h => by omega) fun _ => ?_
          dsimp only
          refine Spec.bind (Spec.mono (decodeCall_spec cfg _ _ ptr s1 cd ?_ hcd1 hp1 hp2) ?_ ?_)
          · omega
          · intro _ s2 h; exact Spec.pure h.1
          · intro e s2 h; exact ⟨h.1, h.2.1, h.2.2.1, h.2.2.2.1⟩
      cases dc with
      | none =>
        dsimp only
        exact Spec.step (D.pure_apply _ _) (fin b hbs2)
      | some c =>
        dsimp only
        refine Spec.bind ⟨fun db s2 h => ?_, fun e s2 h => ?_⟩
        · obtain ⟨h3, rfl⟩ := D.lift_ok.1 h
          refine Spec.step (D.pure_apply _ _) (fin _ ?_)
          rw [List.length_append, List.length_take]; omega
        · obtain ⟨h3, rfl⟩ := D.lift_error.1 h
          rcases decompress_error h3 with ⟨er, rfl⟩ | ⟨l, m, rfl, rfl, u, rest', hu1, hu2, hu3, hu4⟩
          · exact he _ _ hcd1
          · exfalso
            have h3 := documentDecompressor_zlib h2
            have := hzl rfl ⟨t, ht, by rw [← shift4, ← hdt]; exact h3⟩ v rest hvr hv u rest' ?_ hu2
            · rw [sgn_small (by omega)] at hu4; omega
            · rw [← hu1, show 5 + v.length + groups v = 5 + (v.length + groups v) by omega,
                ← List.drop_drop, hvr, ← List.drop_drop, List.drop_left]
  cases vh with
  | none =>
    dsimp only
    exact body s hcd hb
  | some ptr =>
    dsimp only
    obtain ⟨hp1, hp2⟩ := hh ptr rfl
    refine Spec.ite (fun hne1 => ?_) (fun _ => body s hcd hb)
    have hgpos : 0 < groups v := by
      have := hz0 rfl
      omega
    rw [hss]
    refine Spec.byteAt (by omega) fun fl => Spec.ite (fun _ => ?_) (fun _ => body s hcd hb)
    have htk : (b.take (5 + v.length + groups v)).length = 5 + v.length + groups v := by
      rw [List.length_take]; omega
    rw [show fuelFor (5 + v.length + groups v) = fuelFor (b.take (5 + v.length + groups v)).length by
      rw [htk]]
    refine Spec.bind (Spec.mono (decodeCall_spec cfg _ _ ptr s cd ?_ hcd hp1 hp2) ?_ ?_)
    · omega
    · rintro _ s2 ⟨h1, _, _, _, h2⟩
      refine body s2 h1 fun l hl => ?_
      obtain ⟨hl1, hl2⟩ := hb l hl
      refine ⟨Nat.lt_of_lt_of_le hl1 h2.next, ?_⟩
      rw [h2.read hl1 (hne ptr l rfl hl)]
      exact hl2
    · intro e s2 h; exact ⟨h.1, h.2.1, h.2.2.1, h.2.2.2.1⟩

end Sereal
