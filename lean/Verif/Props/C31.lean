import Verif.Proof.Shared
import Verif.Proof.PlacesFound
import Verif.Proof.ApiDoc
import Verif.Props.C28
/-
C31: References inside a document resolve to the referenced data.
-/
namespace Sereal

/-- The item at `i` is a reference to an array of `n` elements, the first of which is at `i'`: ARRAYREF, or REFN and
ARRAY. -/
def ArrayAt (buf : Bytes) (n i i' : Nat) : Prop :=
  ∃ (k : Nat) (b : UInt8), TagAt buf i k b ∧
    (b.toNat = 0x40 + n ∧ n < 16 ∧ i' = k + 1 ∨
     b.toNat = 0x28 ∧ ∃ (k2 : Nat) (b2 : UInt8), TagAt buf (k + 1) k2 b2 ∧ b2.toNat = 0x2b ∧
       Vint goDialect buf (k2 + 1) n i')

/-- The decoded array: a slice, or a pointer to one with PerlCompat. -/
def ArrayVal (h : Heap) (ptr : Bool) (v : Val) (a n : Nat) : Prop :=
  if ptr then ∃ x, v = .ptr false x ∧ h.mem x = .cell (.slice a n) else v = .slice a n

theorem decodeArray_loop {cfg : DCfg} {buf : Bytes} {f i n j : Nat} {loc : Loc} {isRef : Bool} {K : Val → HObj}
    {s s' : DState} {T : Seen} {F : Addr → Prop} {v0 : Val} (p : Pre cfg.view s T F loc K v0) (hn : n < 2 ^ 64)
    (h : decodeArray buf (decode cfg buf f) i (sgn n) loc isRef s = (.ok j, s')) :
    ∃ a s0 w, s.heap.next ≤ a ∧ Inv cfg.view s0 T F ∧ Empty s0 F a n ∧ s0.cd = s.cd ∧
      arrayLoop (decode cfg buf f) n a i s0 = (.ok j, s') ∧ s'.heap.mem loc.addr = K w ∧ ArrayVal s'.heap isRef w a n ∧
      Frame (· = loc.addr) s.heap s'.heap := by
  unfold decodeArray at h
  obtain ⟨_, s1, h1, h⟩ := D.bind_ok.1 h
  obtain ⟨hsz, rfl⟩ := D.failIf_ok.1 h1
  have hle := (sgn_size hn).1 hsz
  have hsg : sgn n = n := sgn_small (by simp [maxSize] at hle; omega)
  rw [hsg] at h
  simp only [Int.toNat_natCast] at h
  obtain ⟨_, s1, h1, h⟩ := D.bind_ok.1 h
  obtain ⟨hlen, rfl⟩ := D.failIf_ok.1 h1
  rw [D.bind_eq (charge_apply _ _), D.bind_eq (allocSlice_apply _ _)] at h
  have hp := p.lt
  have key : ∀ (hp : Heap) (w : Val) (al pk : Nat), Frame (· = loc.addr) (s.heap.allocCells n).2 hp →
      hp.mem loc.addr = K w →
      arrayLoop (decode cfg buf f) n s.heap.next i { s with heap := hp, alloc := al, peak := pk } = (.ok j, s') →
      (∀ h' : Heap, (∀ x, s.heap.next + max n 1 ≤ x → x < hp.next → h'.mem x = hp.mem x) →
        ArrayVal h' isRef w s.heap.next n) →
      ∃ a s0 w, s.heap.next ≤ a ∧ Inv cfg.view s0 T F ∧ Empty s0 F a n ∧ s0.cd = s.cd ∧
        arrayLoop (decode cfg buf f) n a i s0 = (.ok j, s') ∧ s'.heap.mem loc.addr = K w ∧ ArrayVal s'.heap isRef w a n ∧
        Frame (· = loc.addr) s.heap s'.heap := by
    intro hp w al pk fr hm h hs
    have f0 : Frame (· = loc.addr) s.heap hp := (Frame.allocCells _ s.heap n).trans fr (fun _ _ h => h)
    have hnext : s.heap.next + max n 1 ≤ hp.next := by
      have := fr.next; simpa [Heap.allocCells] using this
    have hI : Inv cfg.view { s with heap := hp, alloc := al, peak := pk } T F :=
      p.inv.frame (s' := { s with heap := hp, alloc := al, peak := pk }) f0 (by rintro x hx rfl; exact p.free hx) rfl
    have he : Empty { s with heap := hp, alloc := al, peak := pk } F s.heap.next n := by
      refine ⟨by dsimp only; omega, fun x hx hx' => ⟨fun hc => by have := p.inv.lt x hc; omega, ?_⟩⟩
      dsimp only
      rw [fr.same x (by simp only [Heap.allocCells]; omega) (by omega)]
      simp only [Heap.allocCells]
      rw [if_pos (by omega)]
    obtain ⟨_, _, _, _, _, _, A, _, _⟩ := arrayLoop_sound (decode_sound cfg buf f) n s.heap.next i _ T F j s' hI he.1 he.2 h
    have hfr := A.frame
    dsimp only at hfr
    refine ⟨s.heap.next, _, w, Nat.le_refl _, hI, he, rfl, h, ?_, hs s'.heap (fun x hx hx' => hfr.same x hx' (by omega)), ?_⟩
    · rw [hfr.same _ (by omega) (by omega)]; exact hm
    · exact f0.trans hfr (fun x hx h => by omega)
  have hl1 : loc.addr < (s.heap.allocCells n).2.next := by simp only [Heap.allocCells]; omega
  have hm1 : (s.heap.allocCells n).2.mem loc.addr = K v0 := by
    rw [(Frame.allocCells (fun _ => False) s.heap n).same _ hp (fun h => h)]; exact p.mem
  cases isRef with
  | false =>
    rw [if_neg (by simp), D.bind_eq (writeLoc_apply _ _ _)] at h
    exact key _ (.slice s.heap.next n) _ _ (Frame.write _ loc _) (p.ctx.write hm1) h (fun h' _ => rfl)
  | true =>
    rw [if_pos rfl, D.bind_eq (allocVar_apply _ _), D.bind_eq (writeLoc_apply _ _ _)] at h
    refine key _ (.ptr false (s.heap.allocCells n).2.next) _ _
      ((Frame.alloc _ _ _).trans (Frame.write _ loc _) (fun _ _ h => h))
      (p.ctx.write (by rw [Heap.alloc_old _ _ hl1]; exact hm1)) h ?_
    intro h' hs
    refine ⟨_, rfl, ?_⟩
    rw [hs _ (by simp [Heap.allocCells]) (by rw [Heap.write_next, Heap.alloc_next]; omega),
      Heap.write_mem _ _ _ _ (by omega), Heap.alloc_mem]

/-- Decoding of the array. -/
theorem decode_arrayAt {cfg : DCfg} {buf : Bytes} {f i i' n j : Nat} {x : Addr} {s s' : DState} {T : Seen}
    {F : Addr → Prop} {v0 : Val} (p : Pre cfg.view s T F (.cell x) .cell v0) (ha : ArrayAt buf n i i')
    (h : decode cfg buf f i (.cell x) s = (.ok j, s')) :
    ∃ g a s0 s1 T0 w, x < a ∧ Inv cfg.view s0 T0 F ∧ Empty s0 F a n ∧ s0.cd = s.cd ∧
      arrayLoop (decode cfg buf g) n a i' s0 = (.ok j, s1) ∧ s'.heap.mem x = .cell w ∧ ArrayVal s'.heap cfg.perlCompat w a n ∧
      Frame (· = x) s1.heap s'.heap ∧ ¬ F x := by
  obtain ⟨k, b, ht, ha⟩ := ha
  obtain ⟨g, s2, T0, h2, hh, hd, p2, -, -⟩ := decode_head p h ht
  have hcd : s2.cd = s.cd := by unfold DState.cd; rw [hd]
  have hx := p2.lt
  simp only [Loc.addr] at hx
  rcases ha with ⟨hb, hn, rfl⟩ | ⟨hb, k2, b2, ht2, hb2, hv⟩
  · have hcl : classify (b.toNat % 128) = .arrayref n := by
      rw [hb, Nat.mod_eq_of_lt (by omega)]
      unfold classify
      simp only [show ¬ (64 + n < 16) by omega, show ¬ (64 + n < 32) by omega, show 64 + n ≠ 32 by omega,
        show 64 + n ≠ 33 by omega, show 64 + n ≠ 34 by omega, show 64 + n ≠ 35 by omega, show 64 + n ≠ 37 by omega,
        show 64 + n ≠ 38 by omega, show 64 + n ≠ 39 by omega, show 64 + n ≠ 40 by omega, show 64 + n ≠ 41 by omega,
        show 64 + n ≠ 42 by omega, show 64 + n ≠ 43 by omega, show 64 + n ≠ 44 by omega, show 64 + n ≠ 45 by omega,
        show 64 + n ≠ 46 by omega, show 64 + n ≠ 47 by omega, show 64 + n ≠ 48 by omega, show 64 + n ≠ 49 by omega,
        show 64 + n ≠ 50 by omega, show 64 + n ≠ 51 by omega, show 64 + n ≠ 57 by omega, show 64 + n ≠ 58 by omega,
        show 64 + n ≠ 59 by omega, show 64 + n ≠ 63 by omega, show ¬ (64 + n < 64) by omega, show 64 + n < 80 by omega,
        if_true, if_false, Nat.add_sub_cancel_left]
    rw [hcl] at h2
    have h2 : decodeArray buf (decode cfg buf g) (k + 1) (sgn n) (.cell x) cfg.perlCompat s2 = (.ok j, s') := by
      rw [sgn_small (by omega)]; exact h2
    obtain ⟨a, s0, w, h3, h4, h5, h6, h7, h8, h9, h10⟩ := decodeArray_loop p2 (by omega) h2
    exact ⟨g, a, s0, s', _, w, by omega, h4, h5, h6.trans hcd, h7, h8, h9, Frame.refl _ _, p.free⟩
  · have hcl : classify (b.toNat % 128) = .refn := by rw [hb]; rfl
    rw [hcl] at h2
    have h2 : decodeRefn cfg (decode cfg buf g) (decide (128 ≤ b.toNat)) (k + 1) (.cell x) s2 = (.ok j, s') := h2
    have inner : ∀ {T1 : Seen} {y : Addr} {s3 s4 : DState} {v0 : Val} {j : Nat}, Pre cfg.view s3 T1 F (.cell y) .cell v0 →
        decode cfg buf g (k + 1) (.cell y) s3 = (.ok j, s4) →
        ∃ g a s0 T0, s3.heap.next ≤ a ∧ Inv cfg.view s0 T0 F ∧ Empty s0 F a n ∧ s0.cd = s3.cd ∧
          arrayLoop (decode cfg buf g) n a i' s0 = (.ok j, s4) ∧ s4.heap.mem y = .cell (.slice a n) ∧
          Frame (· = y) s3.heap s4.heap := by
      intro T1 y s3 s4 v0 j p h
      obtain ⟨g', s5, T0, h2, hh, hd, p2, -, -⟩ := decode_head p h ht2
      have hcd : s5.cd = s3.cd := by unfold DState.cd; rw [hd]
      have hcl : classify (b2.toNat % 128) = .array := by rw [hb2]; rfl
      rw [hcl] at h2
      unfold decodeC at h2
      dsimp only at h2
      obtain ⟨⟨val, sz⟩, s6, h3, h2⟩ := D.bind_ok.1 h2
      obtain ⟨rfl, o, hv', rfl, hn64⟩ := varintAt_ok_iff.1 h3
      obtain ⟨rfl, rfl⟩ := hv.unique hv'
      obtain ⟨a, s0, w, h3, h4, h5, h6, h7, h8, h9, h10⟩ := decodeArray_loop p2 hn64 h2
      unfold ArrayVal at h9
      rw [if_neg (by simp)] at h9
      subst h9
      rw [hh] at h3 h10
      exact ⟨g', a, s0, _, h3, h4, h5, h6.trans hcd, h7, h8, h10⟩
    unfold decodeRefn at h2
    by_cases hpc : cfg.perlCompat = true
    · rw [if_pos hpc, D.bind_eq (allocVar_apply _ _), D.bind_eq (writeLoc_apply _ _ _)] at h2
      obtain ⟨i1, s3, h3, h2⟩ := D.bind_ok.1 h2
      have fr : Frame (· = x) s2.heap ((s2.heap.alloc (.cell .nil)).2.write (.cell x)
          (.ptr true s2.heap.next)) := (Frame.alloc _ _ _).trans (Frame.write _ (.cell x) _) (fun _ _ h => h)
      have hm1 : ((s2.heap.alloc (.cell .nil)).2.write (.cell x)
          (.ptr true s2.heap.next)).mem x = .cell (.ptr true s2.heap.next) :=
        p2.ctx.write (by rw [Heap.alloc_old _ _ p2.lt]; exact p2.mem)
      have pin : Pre cfg.view { s2 with heap := (s2.heap.alloc (.cell .nil)).2.write (.cell x) (.ptr true s2.heap.next) }
          T0 F (.cell s2.heap.next) .cell .nil :=
        p2.inner (l := .cell s2.heap.next) (w := .nil) fr rfl (Nat.le_refl _)
        (by dsimp only [Loc.addr]; rw [Heap.write_next]; exact Nat.lt_succ_self _) (.cell _)
        (by
          dsimp only [Loc.addr]
          rw [Heap.write_mem _ _ _ _ (Nat.ne_of_gt p2.lt), Heap.alloc_mem])
      obtain ⟨g', a, s0, T1, h4, h5, h6, h7, h8, h9, h10⟩ := inner pin h3
      dsimp only at h4 h10
      rw [Heap.write_next, Heap.alloc_next] at h4
      have hnext := h10.next
      rw [Heap.write_next, Heap.alloc_next] at hnext
      have htr : ¬ 128 ≤ b.toNat := by omega
      rw [if_neg (by simpa using htr), D.bind_eq (readLoc_apply _ _), (Ctx.cell s2.heap.next).read (hp := s3.heap) h9,
        if_neg (by simp), D.bind_eq (allocVar_apply _ _), D.bind_eq (writeLoc_apply _ _ _), D.pure_ok] at h2
      obtain ⟨rfl, rfl⟩ := h2
      have hma : s3.heap.mem x = .cell (.ptr true s2.heap.next) := by
        rw [h10.same x (by rw [Heap.write_next, Heap.alloc_next]; omega) (by omega)]; exact hm1
      refine ⟨g', a, s0, s3, T1, .ptr false s3.heap.next, by omega, h5, h6, h7.trans hcd, h8, ?_, ?_,
        (Frame.alloc _ _ _).trans (Frame.write _ (.cell x) _) (fun _ _ h => h), p.free⟩
      · exact (Ctx.cell x).write (by simp only [Loc.addr]; rw [Heap.alloc_old _ _ (by omega)]; exact hma)
      · unfold ArrayVal
        rw [if_pos hpc]
        refine ⟨_, rfl, ?_⟩
        rw [Heap.write_mem _ _ _ _ (by simp only [Loc.addr]; omega), Heap.alloc_mem]
    · rw [if_neg hpc] at h2
      obtain ⟨g', a, s0, T1, h4, h5, h6, h7, h8, h9, h10⟩ := inner p2 h2
      refine ⟨g', a, s0, s', T1, .slice a n, by omega, h5, h6, h7.trans hcd, h8, h9, ?_, Frame.refl _ _, p.free⟩
      unfold ArrayVal
      rw [if_neg hpc]

/-- The data part, for every document without compression that is accepted: it denotes a tree, in which REFP to a
completed tracked item appears as `.refp t` with the tree `t` of that item, and the result is the view of that tree. -/
theorem C31_data {cfg : DCfg} {cs : Codecs} {b : Bytes} {ver : Nat} {lf suf body : Bytes} {h : Heap} {v : Val}
    (hd : IsDoc b ver 0 lf suf body) (hu : unmarshal cfg cs b = .ok (h, v)) :
    ∃ t j, Denotes goDialect (itemBuf ver (headBytes ver 0 lf suf) body).1 (itemBuf ver (headBytes ver 0 lf suf) body).2
      t j ∧ Shows cfg.view h v t :=
  unmarshal_sound (bodyInput_raw hd) hu

/-- What the view of `.refp t` is: a pointer to a view of `t`, or a view of `t` itself with
DisableReferentialIntegrity. -/
theorem C31_view {c : ViewCfg} {h : Heap} {v : Val} {t : Tree} (hs : Shows c h v (.refp t)) :
    (c.disableRefInt = false ∧ ∃ a w, v = .ptr false a ∧ h.mem a = .cell w ∧ Shows c h w t) ∨
    (c.disableRefInt = true ∧ Shows c h v t) := by
  cases hs with
  | refp h1 h2 h3 => exact Or.inl ⟨h1, _, _, rfl, h2, h3⟩
  | refpI h1 h2 => exact Or.inr ⟨h1, h2⟩

/-- The sharing part: the document is an array; element `m1` is tracked (or a REFN to something tracked); then come
`m2` elements; then a REFP (or ALIAS) names the tracked item; then come `m3` elements.  The result is a slice;
element `m1` of it is `w` (a pointer to `w` for REFN with PerlCompat); and the element for the REFP is a pointer to
the same `w`, or `w` itself for ALIAS or with DisableReferentialIntegrity.  `w` is the same Go value, so that if it
is a slice or a map, it is one with the same storage.

References at other places than the elements of the outermost array: `C31_graph`.  Missing from the full claim: COPY
items in the tracked element and up to the reference (grammar `wrtDialect`; keys and class names may be COPY tags):
there the claim is false, see `C31_fails`. -/
theorem C31_partial {cfg : DCfg} {cs : Codecs} {b : Bytes} {ver : Nat} {lf suf body : Bytes} {h : Heap} {v : Val}
    {buf : Bytes} {i i' m1 m2 m3 k k1 k2 : Nat} {refn alias : Bool} {U U' V V' : Seen} {ts1 ts2 : List Tree}
    (hd : IsDoc b ver 0 lf suf body) (hb : itemBuf ver (headBytes ver 0 lf suf) body = (buf, i))
    (ha : ArrayAt buf (m1 + 1 + m2 + 1 + m3) i i')
    (h1 : G goDialect buf false (.items m1) i' U (.trees ts1) k1 U')
    (h2 : G wrtDialect buf false (.items (m2 + 1)) k1 V (.trees ts2) k2 V')
    (ht : TrackedAt buf refn k1 k) (hr : NamesAt buf alias k2 k)
    (hu : unmarshal cfg cs b = .ok (h, v)) :
    ∃ a w, ArrayVal h cfg.perlCompat v a (m1 + 1 + m2 + 1 + m3) ∧
      Found h (refn && cfg.perlCompat) (a + m1) w (fun _ => True) ∧
      Refers h (alias || cfg.disableRefInt) (a + (m1 + 1 + m2)) w (fun _ => True) := by
  obtain ⟨buf', i0, j, s', hb', hdec, rfl, rfl⟩ := unmarshal_ok.1 hu
  rw [bodyInput_raw hd, hb] at hb'
  cases hb'
  obtain ⟨g, a, s0, s1, T0, w, hx, hI, he, hcd, hl, hm, hs, hfr, hF⟩ := decode_arrayAt (init_pre cfg.view) ha hdec
  rw [show m1 + 1 + m2 + 1 + m3 = m1 + ((m2 + 1) + (1 + m3)) by omega] at *
  obtain ⟨w', F', hf, hrf, hnew, hltn⟩ := loop_shared hI he hcd hl h1 h2 ht hr
  have hag : Agree F' s1.heap s'.heap := by
    intro x hx'
    have hne : x ≠ 1 := by
      rintro rfl
      rcases hnew 1 hx' with h | h
      · exact hF h
      · omega
    exact hfr.same x (hltn x hx') hne
  refine ⟨a, w', ?_, hf.agree hag (fun _ _ => trivial), ?_⟩
  · have : s'.heap.cellAt 1 = w := by unfold Heap.cellAt; rw [hm]
    rw [this]; exact hs
  · have := hrf.agree hag (F' := fun _ => True) (fun _ _ => trivial)
    rwa [show a + m1 + (m2 + 1) = a + (m1 + 1 + m2) by omega] at this

/-- `[[1], 7, \[1]]`: an array whose first element is a tracked array, and whose third is a REFP to it. -/
def docShare : Bytes :=
  [0x3d, 0xf3, 0x72, 0x6c, 0x03, 0x00, 0x43, 0x28, 0xab, 0x01, 0x01, 0x07, 0x29, 0x03]

theorem docShare_doc : IsDoc docShare 3 0 [0x00] [] (docShare.drop 6) :=
  ⟨rfl, by decide, by decide, by simp [IsVarint], by decide, rfl, by decide⟩

set_option maxRecDepth 8000 in
/-- Non-vacuity of `C31_partial`. -/
example : ∃ h v a w, unmarshal {} dummyCodecs docShare = .ok (h, v) ∧ v = .slice a 3 ∧ h.mem a = .cell w ∧
    ∃ x, h.mem (a + 2) = .cell (.ptr false x) ∧ h.mem x = .cell w := by
  obtain ⟨h, v, hu⟩ : ∃ h v, unmarshal {} dummyCodecs docShare = .ok (h, v) := by
    have : (unmarshal {} dummyCodecs docShare).isOk = true := by decide +kernel
    cases hr : unmarshal {} dummyCodecs docShare with
    | ok r => exact ⟨r.1, r.2, rfl⟩
    | error e => rw [hr] at this; cases this
  obtain ⟨a, w, h1, h2, h3⟩ := C31_partial (m1 := 0) (m2 := 1) (m3 := 0) (k := 3) (k1 := 2) (k2 := 7) (refn := true)
    (alias := false) (U := fun _ => none) (V := fun _ => none) (i' := 2) docShare_doc rfl
    ⟨1, 0x43, .here rfl (by decide), Or.inl ⟨by decide, by decide, rfl⟩⟩ .itemsNil
    (.itemsCons (.plain (.here rfl (by decide)) (by decide) (.refn (.tracked (.here rfl (by decide)) (by decide)
      (.array (n := 1) (.here rfl (by decide) (by decide)) (by decide) (.itemsCons (.plain (.here rfl (by decide)) (by decide) (.int (n := 1))) .itemsNil)))))
      (.itemsCons (.plain (.here rfl (by decide)) (by decide) (.int (n := 7))) .itemsNil))
    ⟨0xab, by decide, 2, 0x28, .here rfl (by decide), by decide, .here rfl (by decide)⟩
    ⟨7, 0x29, 9, .here rfl (by decide), by decide, .here rfl (by decide) (by decide)⟩ hu
  obtain ⟨x, h4, h5, -, -⟩ := h3
  exact ⟨h, v, a, w, hu, h1, h2.1, x, h4, h5⟩

/-- The whole graph, for every document that is accepted, at every depth: the result is a graph of Go variables in
which every item of the document has a variable, and REFP and ALIAS items hold what the variable of the named item
holds (`Laid`, Spec/Places.lean); and the table of tracked items gives for every position a variable in which the item
at that position is kept.

Together with `Laid.stays` (a place changes only if there is a COPY item) this is the claim for documents without COPY
items.  With COPY items a reference may share with the copy of the named item, see `C31_fails`. -/
theorem C31_graph {cfg : DCfg} {cs : Codecs} {b buf : Bytes} {i : Nat} {h : Heap} {v : Val}
    (hb : bodyInput cs b = .ok (buf, i)) (hu : unmarshal cfg cs b = .ok (h, v)) :
    ∃ j ρ, v = h.read (.cell 1) ∧ Laid cfg.view h buf false [] (.item (.cell 1)) i (fun _ => none) j ρ ∧
      ∀ o l, ρ o = some l → ItemIn cfg.view h buf o l := by
  obtain ⟨buf', i', j, s', hb', hdec, rfl, rfl⟩ := unmarshal_ok.1 hu
  rw [hb] at hb'
  cases hb'
  have p := init_pre cfg.view
  have r : Ready cfg.view { DState.init with tracked := fun _ => none } (· = 0) [] (.cell 1) .cell := by
    refine ⟨⟨p.inv.lt, p.inv.canon, ?_⟩, p.free, p.lt, p.ctx, p.mem, ?_⟩
    · intro o l ho; cases ho
    · intro o l ho; cases ho
  obtain ⟨F, M, -, -, k⟩ := decode_lodges cfg buf _ i [] (.cell 1) .cell _ (· = 0) j s' r hdec
  have k' := k s'.heap (Agree.refl _ _)
  refine ⟨j, s'.tracked, rfl, k', ?_⟩
  intro o l ho
  rcases k'.found o l ho with h1 | h1
  · cases h1
  · exact h1

/-- The same for documents without compression. -/
theorem C31_graph_doc {cfg : DCfg} {cs : Codecs} {b : Bytes} {ver : Nat} {lf suf body : Bytes} {h : Heap} {v : Val}
    (hd : IsDoc b ver 0 lf suf body) (hu : unmarshal cfg cs b = .ok (h, v)) :
    ∃ j ρ, v = h.read (.cell 1) ∧
      Laid cfg.view h (itemBuf ver (headBytes ver 0 lf suf) body).1 false [] (.item (.cell 1))
        (itemBuf ver (headBytes ver 0 lf suf) body).2 (fun _ => none) j ρ ∧
      ∀ o l, ρ o = some l → ItemIn cfg.view h (itemBuf ver (headBytes ver 0 lf suf) body).1 o l :=
  C31_graph (bodyInput_raw hd) hu

/-- Without COPY items no place is ever changed: when the part from `i` to `j` begins, the items before `i` have their
final places. -/
theorem C31_graph_stays {c : ViewCfg} {h : Heap} {buf : Bytes} {cd : Bool} {opn : List Nat} {part : Part} {i j : Nat}
    {ρ ρ' : Places} (k : Laid c h buf cd opn part i ρ j ρ') (hc : ¬ CopyIn c h buf i j) : ∀ o, o < i → ρ' o = ρ o :=
  k.stays.resolve_right hc

/-- `[{"a": [1]}, {"b": [\[1], \(the whole array)]}]`: references out of and into containers, and a cycle. -/
def docDeep : Bytes :=
  [0x3d, 0xf3, 0x72, 0x6c, 0x03, 0x00, 0x28, 0xab, 0x02, 0x51, 0x61, 0x61, 0x28, 0xab, 0x01, 0x01,
   0x51, 0x61, 0x62, 0x42, 0x29, 0x08, 0x29, 0x02]

theorem docDeep_doc : IsDoc docDeep 3 0 [0x00] [] (docDeep.drop 6) :=
  ⟨rfl, by decide, by decide, by simp [IsVarint], by decide, rfl, by decide⟩

/-- The outermost slice, the slice in `[0]["a"]`, and the slices behind the pointers in `[1]["b"][0]` and `[1]["b"][1]`. -/
def slicesDeep (r : Res (Heap × Val)) : Option (Addr × Addr × Addr × Addr) :=
  match r with
  | .ok (h, .slice p 2) =>
    match h.cellAt p, h.cellAt (p + 1) with
    | .smap m1, .smap m2 =>
      match h.mem m1, h.mem m2 with
      | .mp [(_, .slice a 1)], .mp [(_, .slice q 2)] =>
        match h.cellAt q, h.cellAt (q + 1) with
        | .ptr _ x, .ptr _ y =>
          match h.cellAt x, h.cellAt y with
          | .slice b 1, .slice c 2 => some (p, a, b, c)
          | _, _ => none
        | _, _ => none
      | _, _ => none
    | _, _ => none
  | _ => none

set_option maxRecDepth 8000 in
/-- Non-vacuity of `C31_graph`: it applies to this document, and the slices are shared as it says. -/
example : (∃ h v j ρ, unmarshal {} dummyCodecs docDeep = .ok (h, v) ∧
      Laid (DCfg.view {}) h (docDeep.drop 5) false [] (.item (.cell 1)) 1 (fun _ => none) j ρ) ∧
    ∃ p a, slicesDeep (unmarshal {} dummyCodecs docDeep) = some (p, a, a, p) ∧ a ≠ p := by
  constructor
  · obtain ⟨h, v, hu⟩ : ∃ h v, unmarshal {} dummyCodecs docDeep = .ok (h, v) := by
      have : (unmarshal {} dummyCodecs docDeep).isOk = true := by decide +kernel
      cases hr : unmarshal {} dummyCodecs docDeep with
      | ok r => exact ⟨r.1, r.2, rfl⟩
      | error e => rw [hr] at this; cases this
    obtain ⟨j, ρ, -, k, -⟩ := C31_graph_doc docDeep_doc hu
    exact ⟨h, v, j, ρ, hu, k⟩
  · exact ⟨2, 6, by decide +kernel, by decide⟩

/-- `[[1], [1], \[1]]`, with the second element a COPY of the first, and the third a REFP to the array in the first. -/
def docShareCopy : Bytes :=
  [0x3d, 0xf3, 0x72, 0x6c, 0x03, 0x00, 0x43, 0x28, 0xab, 0x01, 0x01, 0x2f, 0x02, 0x29, 0x03]

/-- The slices in element 0, in element 1 and behind the pointer in element 2. -/
def slicesIn (r : Res (Heap × Val)) : Option (Addr × Addr × Addr) :=
  match r with
  | .ok (h, .slice p 3) =>
    match h.cellAt p, h.cellAt (p + 1), h.cellAt (p + 2) with
    | .slice a _, .slice b _, .ptr _ x =>
      match h.cellAt x with
      | .slice c _ => some (a, b, c)
      | _ => none
    | _, _, _ => none
  | _ => none

/-- The claim is false for documents with COPY: decoding the copy puts the copy in the table of tracked items
(decode.go:287-289 via decode.go:430-432), so that the REFP, which names the item in the first element, shares its
storage with the second element and not with the first. -/
theorem C31_fails : ∃ b a1 a2 a3, slicesIn (unmarshal {} dummyCodecs b) = some (a1, a2, a3) ∧ a3 = a2 ∧ a1 ≠ a3 :=
  ⟨docShareCopy, 5, 6, 6, by decide +kernel, rfl, by decide⟩

/-- An object of class `A` that is an array whose only element is an alias of the object. -/
def docObjCycle : Bytes :=
  [0x3d, 0xf3, 0x72, 0x6c, 0x03, 0x00, 0xac, 0x61, 0x41, 0x28, 0x2b, 0x01, 0x2e, 0x01]

/-- Cycles through objects are cut (`Laid.aliasOpen`): the variable of an object is set after its contents
(decode.go:700-706), so that the alias of the object inside it is nil.  Cycles through arrays and hashes are kept, as
`docDeep` shows. -/
theorem C31_cycle_cut : (match unmarshal {} dummyCodecs docObjCycle with
    | .ok (h, .slice p 1) => some (h.cellAt p)
    | _ => none) = some .nil := by decide +kernel

end Sereal
