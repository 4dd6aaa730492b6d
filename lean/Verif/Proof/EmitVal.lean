import Verif.Proof.EmitLeaf
import Verif.Proof.Complete
import Verif.Proof.ApiDoc
import Verif.Proof.Fails
/-
What the encoder writes: containers, Perl values, structs and pointers.
-/
namespace Sereal

variable {c : ECfg} {inp : Heap} {base : Nat} {R : Tree → Prop}

theorem EncItem.imp {x : E Unit} {R R' : Tree → Prop} (h : EncItem c inp base x R) (hr : ∀ t, R t → R' t) :
    EncItem c inp base x R' := by
  intro s s' g hi he
  obtain ⟨g', t, h1, h2⟩ := h s s' g hi he
  exact ⟨g', t, hr t h1, h2⟩

theorem Step.lt {s s' : EState} {g g' : Gh} {P : Bytes → Seen → Seen → Prop} {X : Addr → Nat → Prop} {t : Tree}
    (h : Step c inp base X s s' g g' P) (hs : g'.seen g.raw.length = some (some t)) :
    g.raw.length < g'.raw.length :=
  (h.inv.range _ (by rw [hs]; simp)).2

/-- Elements one after the other. -/
theorem elems {rec : Val → E Unit} {W : Val → Tree → Prop} (hrec : ∀ v, EncItem c inp base (rec v) (W v)) :
    ∀ (vs : List Val) (s s' : EState) (g : Gh), EInv c inp base s g → encodeElems rec vs s = .ok ((), s') →
    ∃ g' ts, ts.length = vs.length ∧ (∀ (i : Nat) t v, ts[i]? = some t → vs[i]? = some v → W v t) ∧
      Step c inp base (fun _ _ => False) s s' g g' (fun B T T' => (∀ t ∈ ts, Fits maxSize t) →
        G wrtDialect B false (.items vs.length) g.raw.length T (.trees ts) g'.raw.length T') ∧
      (∀ t ∈ ts, Fits g'.raw.length t) ∧ g.raw.length + ts.length ≤ g'.raw.length
  | [], s, s', g, hi, he => by
    obtain ⟨_, rfl⟩ := E.pure_ok.1 he
    exact ⟨g, [], rfl, by simp, (Step.refl hi).mono (by rintro B T T' rfl _; exact .itemsNil), by simp, by simp⟩
  | v :: vs, s, s', g, hi, he => by
    obtain ⟨_, s1, h1, h2⟩ := E.bind_ok.1 he
    obtain ⟨g1, t, hW, hst, hs, hf⟩ := hrec v s s1 g hi h1
    obtain ⟨g2, ts, hl, hWs, hst2, hfs, hlen⟩ := elems hrec vs s1 s' g1 hst.inv h2
    refine ⟨g2, t :: ts, by simp [hl], ?_, (hst.comp hst2).mono ?_, ?_, ?_⟩
    · intro i t' v' ht' hv'
      cases i with
      | zero => cases ht'; cases hv'; exact hW
      | succ i => exact hWs i t' v' (by simpa using ht') (by simpa using hv')
    · rintro B T T' ⟨T1, h3, h4⟩ hfit
      exact .itemsCons (h3 (hfit t (by simp))) (h4 (fun t' ht' => hfit t' (by simp [ht'])))
    · intro t' ht'
      rcases List.mem_cons.1 ht' with rfl | ht'
      · exact hf.mono hst2.grows.le
      · exact hfs t' ht'
    · have := hst.lt hs
      simp only [List.length_cons]
      omega

/-- Key/value pairs one after the other. -/
theorem prs {key : Bytes → E Unit} {rec : Val → E Unit} {W : Val → Tree → Prop}
    (hkey : ∀ k, EncKey c inp base (key k) k) (hrec : ∀ v, EncItem c inp base (rec v) (W v))
    (kvs : List (Bytes × Val)) :
    ∀ (ks : List Bytes) (s s' : EState) (g : Gh), EInv c inp base s g →
      encodePairs key rec kvs ks s = .ok ((), s') →
    ∃ g' kts, kts.map Prod.fst = ks ∧ (∀ k t, (k, t) ∈ kts → W ((mapLookup k kvs).getD .nil) t) ∧
      Step c inp base (fun _ _ => False) s s' g g' (fun B T T' =>
        (∀ k t, (k, t) ∈ kts → k.length ≤ maxSize ∧ Fits maxSize t) →
        G wrtDialect B false (.pairs ks.length) g.raw.length T (.pairs kts) g'.raw.length T') ∧
      (∀ k t, (k, t) ∈ kts → k.length ≤ g'.raw.length ∧ Fits g'.raw.length t) ∧
      g.raw.length + kts.length ≤ g'.raw.length
  | [], s, s', g, hi, he => by
    obtain ⟨_, rfl⟩ := E.pure_ok.1 he
    exact ⟨g, [], rfl, by simp, (Step.refl hi).mono (by rintro B T T' rfl _; exact .pairsNil), by simp, by simp⟩
  | k :: ks, s, s', g, hi, he => by
    obtain ⟨_, s0, h0, he⟩ := E.bind_ok.1 he
    obtain ⟨_, s1, h1, h2⟩ := E.bind_ok.1 he
    obtain ⟨g0, hst0, hk0⟩ := hkey k s s0 g hi h0
    obtain ⟨g1, t, hW, hst, hs, hf⟩ := hrec _ s0 s1 g0 hst0.inv h1
    obtain ⟨g2, kts, hl, hWs, hst2, hfs, hlen⟩ := prs hkey hrec kvs ks s1 s' g1 hst.inv h2
    have hle0 := hst0.grows.le
    have hle1 := hst.lt hs
    have hle2 := hst2.grows.le
    refine ⟨g2, (k, t) :: kts, by simp [hl], ?_, ((hst0.comp hst).comp hst2).mono ?_, ?_, ?_⟩
    · intro k' t' ht'
      rcases List.mem_cons.1 ht' with h | ht'
      · cases h; exact hW
      · exact hWs k' t' ht'
    · rintro B T T' ⟨T1, ⟨T0, ⟨rfl, h3⟩, h4⟩, h5⟩ hfit
      have hh := hfit k t (by simp)
      exact .pairsCons (h3 hh.1) (h4 hh.2) (h5 (fun k' t' ht' => hfit k' t' (by simp [ht'])))
    · intro k' t' ht'
      rcases List.mem_cons.1 ht' with h | ht'
      · cases h
        exact ⟨by omega, hf.mono hle2⟩
      · exact hfs k' t' ht'
    · simp only [List.length_cons]
      omega

/-- A tag followed by an item. -/
theorem wrapItem {tag : UInt8} {x : E Unit} {f : Tree → Tree} (ht : PlainTag tag)
    (hfit : ∀ n t, Fits n (f t) ↔ Fits n t)
    (hbody : ∀ B i T t j T', G wrtDialect B false .item i T (.tree t) j T' →
      G wrtDialect B false (.body (classify tag.toNat)) i T (.tree (f t)) j T')
    {R R' : Tree → Prop} (h : EncItem c inp base x R) (hr : ∀ t, R t → R' (f t)) :
    EncItem c inp base (emit [tag] >>= fun _ => x) R' := by
  intro s s' g hi he
  obtain ⟨_, s1, h1, h2⟩ := E.bind_ok.1 he
  have h1 := emit_ok.1 h1
  have hst1 := step_start (X := fun _ _ => False) hi ht.1 (s1 := s1) (w := []) (by rw [h1]) (by rw [h1])
    (fun κ o ho => .inl (by rw [h1] at ho; exact ho)) (fun _ _ hf => hf.elim)
  obtain ⟨g2, t, hR, hst2, hs2, hf2⟩ := h s1 s' (g.start [tag]) hst1.inv h2
  obtain ⟨h3, h4⟩ := mk_item (X := fun _ _ => False) (F := Fits maxSize (f t)) (t := f t) (s1 := s1) (g2 := g2)
    hi ht (w := []) (by rw [h1]) (by rw [h1]) (fun κ o ho => .inl (by rw [h1] at ho; exact ho))
    (fun _ _ hf => hf.elim) (fun _ => hst2)
    (by
      intro B T T' hQ _ hF hsp
      have := hQ ((hfit _ _).1 hF)
      have hl : (g.start [tag]).raw.length = g.raw.length + 1 := by simp [Gh.start]
      rw [hl] at this
      exact hbody _ _ _ _ _ _ this)
  exact ⟨_, f t, hr t hR, h3, h4, (hfit _ _).2 hf2⟩

theorem Fits.ref_iff {n : Nat} {t : Tree} : Fits n (.ref t) ↔ Fits n t :=
  ⟨fun h => by cases h; assumption, .ref⟩
theorem Fits.weak_iff {n : Nat} {t : Tree} : Fits n (.weak t) ↔ Fits n t :=
  ⟨fun h => by cases h; assumption, .weak⟩

theorem refItem {x : E Unit} {R R' : Tree → Prop} (h : EncItem c inp base x R) (hr : ∀ t, R t → R' (.ref t)) :
    EncItem c inp base (emit [typeREFN] >>= fun _ => x) R' :=
  wrapItem (tag := typeREFN) (f := .ref) (by decide) (fun _ _ => Fits.ref_iff) (fun _ _ _ _ _ _ h => .refn h) h hr

theorem weakItem {x : E Unit} {R R' : Tree → Prop} (h : EncItem c inp base x R) (hr : ∀ t, R t → R' (.weak t)) :
    EncItem c inp base (emit [typeWEAKEN] >>= fun _ => x) R' :=
  wrapItem (tag := typeWEAKEN) (f := .weak) (by decide) (fun _ _ => Fits.weak_iff) (fun _ _ _ _ _ _ h => .weaken h) h hr

/-- A tag and payload followed by something. -/
theorem tagThen {tag : UInt8} {w : Bytes} (ht : PlainTag tag) {x : E Unit} {s s' : EState} {g : Gh}
    (hi : EInv c inp base s g) (he : (emit (tag :: w) >>= fun _ => x) s = .ok ((), s'))
    {Q : Gh → Tree → Bytes → Seen → Seen → Prop} {R : Tree → Prop}
    (h : ∀ s1, EInv c inp base s1 (g.start (tag :: w)) → x s1 = .ok ((), s') →
      ∃ g2 t, R t ∧ Step c inp base (fun _ _ => False) s1 s' (g.start (tag :: w)) g2 (Q g2 t) ∧
        Fits g2.raw.length t ∧
        ∀ B T T', Q g2 t B T T' → g2.raw.length < 2 ^ 63 → Fits maxSize t →
          Span B (g.raw.length + 1) w (g.start (tag :: w)).raw.length →
          G wrtDialect B false (.body (classify tag.toNat)) (g.raw.length + 1) T (.tree t) g2.raw.length T') :
    ∃ g' t, R t ∧ Step c inp base (fun _ _ => False) s s' g g'
        (fun B T T' => Fits maxSize t →
          G wrtDialect B false .item g.raw.length T (.tree t) g'.raw.length T') ∧
      g'.seen g.raw.length = some (some t) ∧ Fits g'.raw.length t := by
  obtain ⟨_, s1, h1, h2⟩ := E.bind_ok.1 he
  have h1 := emit_ok.1 h1
  have hst1 := step_start (X := fun _ _ => False) hi ht.1 (s1 := s1) (w := w) (by rw [h1]) (by rw [h1])
    (fun κ o ho => .inl (by rw [h1] at ho; exact ho)) (fun _ _ hf => hf.elim)
  obtain ⟨g2, t, hR, hst2, hf2, hb⟩ := h s1 hst1.inv h2
  obtain ⟨h3, h4⟩ := mk_item (X := fun _ _ => False) (F := Fits maxSize t) (t := t) (s1 := s1) (g2 := g2)
    hi ht (w := w) (by rw [h1]) (by rw [h1]) (fun κ o ho => .inl (by rw [h1] at ho; exact ho))
    (fun _ _ hf => hf.elim) (fun _ => hst2) hb
  exact ⟨_, t, hR, h3, h4, hf2⟩

theorem start_length (g : Gh) (tag : UInt8) (w : Bytes) :
    (g.start (tag :: w)).raw.length = g.raw.length + 1 + w.length := by simp [Gh.start]; omega

theorem arrItem {rec : Val → E Unit} {W : Val → Tree → Prop} (hrec : ∀ v, EncItem c inp base (rec v) (W v))
    (vs : List Val) :
    EncItem c inp base (emit (typeARRAY :: varint vs.length) >>= fun _ => encodeElems rec vs)
      (fun t => ∃ ts, t = .arr ts ∧ ts.length = vs.length ∧
        ∀ (i : Nat) t v, ts[i]? = some t → vs[i]? = some v → W v t) := by
  intro s s' g hi he
  refine tagThen (by decide) hi he (Q := fun g2 t B T T' => ∀ ts, t = .arr ts → (∀ t ∈ ts, Fits maxSize t) →
        G wrtDialect B false (.items vs.length) (g.start (typeARRAY :: varint vs.length)).raw.length T
          (.trees ts) g2.raw.length T') (fun s1 hi1 h1 => ?_)
  obtain ⟨g2, ts, hl, hW, hst, hf, hlen⟩ := elems hrec vs s1 s' _ hi1 h1
  refine ⟨g2, .arr ts, ⟨ts, rfl, hl, hW⟩, hst.mono ?_, .arr (by omega) hf, ?_⟩
  · rintro B T T' h ts' he
    cases he
    exact h
  · intro B T T' hQ _ hF hsp
    cases hF with
    | arr hn hF =>
      have := hQ ts rfl hF
      exact .array (Vint.of_span hsp (Nat.lt_of_le_of_lt (hl ▸ hn) (by decide))) (hl ▸ hn) this

theorem mapItem {key : Bytes → E Unit} {rec : Val → E Unit} {W : Val → Tree → Prop}
    (hkey : ∀ k, EncKey c inp base (key k) k) (hrec : ∀ v, EncItem c inp base (rec v) (W v))
    (hord : ∀ n ks, (c.ord n ks).Perm ks) (kvs : List (Bytes × Val)) :
    EncItem c inp base (emit (typeHASH :: varint kvs.length) >>= fun _ =>
        rangeKeys c (kvs.map (·.1)) >>= fun ks => encodePairs key rec kvs ks)
      (fun t => ∃ kts, t = .map kts ∧ (kts.map Prod.fst).Perm (kvs.map Prod.fst) ∧
        ∀ k t, (k, t) ∈ kts → W ((mapLookup k kvs).getD .nil) t) := by
  intro s s' g hi he
  refine tagThen (by decide) hi he (Q := fun g2 t B T T' => ∀ kts, t = .map kts →
        (∀ k t, (k, t) ∈ kts → k.length ≤ maxSize ∧ Fits maxSize t) →
        G wrtDialect B false (.pairs kvs.length) (g.start (typeHASH :: varint kvs.length)).raw.length T
          (.pairs kts) g2.raw.length T') (fun s1 hi1 h1 => ?_)
  obtain ⟨ks, s2, h2, h3⟩ := E.bind_ok.1 h1
  have hs2 : s2 = { s1 with visits := s1.visits + 1 } ∧ ks = c.ord s1.visits (kvs.map (·.1)) := by
    unfold rangeKeys at h2; cases h2; exact ⟨rfl, rfl⟩
  obtain ⟨hs2, hks⟩ := hs2
  have hi2 : EInv c inp base s2 (g.start (typeHASH :: varint kvs.length)) := by
    rw [hs2]
    exact ⟨hi1.base_le, hi1.len, hi1.agree, hi1.flags, hi1.range, hi1.strs, hi1.ptrs⟩
  obtain ⟨g2, kts, hl, hW, hst, hf, hlen⟩ := prs hkey hrec kvs ks s2 s' _ hi2 h3
  have hperm : (kts.map Prod.fst).Perm (kvs.map Prod.fst) := by
    rw [hl, hks]; exact hord _ _
  have hn : ks.length = kvs.length := by
    rw [hks]; simpa using (hord s1.visits (kvs.map (·.1))).length_eq
  have hn2 : kts.length = kvs.length := by
    rw [← hn, ← hl]; simp
  refine ⟨g2, .map kts, ⟨kts, rfl, hperm, hW⟩, ?_, .map (by omega) (fun k t h => (hf k t h).1)
    (fun k t h => (hf k t h).2), ?_⟩
  · refine ⟨hst.inv, hst.grows, fun κ o ho => ?_, fun φ B hf => ?_⟩
    · have := hst.new κ o ho
      rw [hs2] at this
      exact this
    · intro kts' he
      cases he
      have := hst.reads φ B hf
      rw [hn] at this
      exact this
  · intro B T T' hQ _ hF hsp
    cases hF with
    | map hm hk hF =>
      rw [hn2] at hm
      have := hQ kts rfl (fun k t h => ⟨hk k t h, hF k t h⟩)
      exact .hash (Vint.of_span hsp (Nat.lt_of_le_of_lt hm (by decide))) hm this

/-- A class name followed by an item. -/
theorem objItem {x key : E Unit} {cls : Bytes} {R R' : Tree → Prop} (hkey : EncKey c inp base key cls)
    (h : EncItem c inp base x R) (hr : ∀ t, R t → R' (.obj cls t)) :
    EncItem c inp base (emit [typeOBJECT] >>= fun _ => key >>= fun _ => x) R' := by
  intro s s' g hi he
  refine tagThen (by decide) hi he (Q := fun g2 t B T T' => ∀ t0, t = .obj cls t0 → cls.length ≤ maxSize →
      Fits maxSize t0 → ∃ j, Strish wrtDialect B false (g.start [typeOBJECT]).raw.length cls j ∧
        G wrtDialect B false .item j T (.tree t0) g2.raw.length T') (fun s1 hi1 h1 => ?_)
  obtain ⟨_, s2, h2, h3⟩ := E.bind_ok.1 h1
  obtain ⟨g1, hst1, hk1⟩ := hkey s1 s2 _ hi1 h2
  obtain ⟨g2, t, hR, hst2, hs2, hf2⟩ := h s2 s' g1 hst1.inv h3
  refine ⟨g2, .obj cls t, hr t hR, (hst1.comp hst2).mono ?_, .obj (Nat.le_trans hk1 hst2.grows.le) hf2, ?_⟩
  · rintro B T T' ⟨T1, ⟨rfl, h4⟩, h5⟩ t0 he hc hF
    cases he
    exact ⟨_, h4 hc, h5 hF⟩
  · intro B T T' hQ _ hF _
    cases hF with
    | obj hc hF =>
      obtain ⟨j, h4, h5⟩ := hQ t rfl hc hF
      rw [start_length] at h4
      exact .object h4 h5

/-- A pattern and its modifiers. -/
theorem regexpItem {k1 k2 : E Unit} {p m : Bytes} {R : Tree → Prop} (hk1 : EncKey c inp base k1 p)
    (hk2 : EncKey c inp base k2 m) (hr : R (.regexp p m)) :
    EncItem c inp base (emit [typeREGEXP] >>= fun _ => k1 >>= fun _ => k2) R := by
  intro s s' g hi he
  refine tagThen (by decide) hi he (Q := fun g2 _ B T T' => p.length ≤ maxSize → m.length ≤ maxSize →
      T' = T ∧ ∃ j, Strish wrtDialect B false (g.start [typeREGEXP]).raw.length p j ∧
        Strish wrtDialect B false j m g2.raw.length) (fun s1 hi1 h1 => ?_)
  obtain ⟨_, s2, h2, h3⟩ := E.bind_ok.1 h1
  obtain ⟨g1, hst1, hl1⟩ := hk1 s1 s2 _ hi1 h2
  obtain ⟨g2, hst2, hl2⟩ := hk2 s2 s' g1 hst1.inv h3
  refine ⟨g2, .regexp p m, hr, (hst1.comp hst2).mono ?_, .regexp (Nat.le_trans hl1 hst2.grows.le) hl2, ?_⟩
  · rintro B T T' ⟨T1, ⟨rfl, h4⟩, rfl, h5⟩ hp hm
    exact ⟨rfl, _, h4 hp, h5 hm⟩
  · intro B T T' hQ _ hF _
    cases hF with
    | regexp hp hm =>
      obtain ⟨rfl, j, h4, h5⟩ := hQ hp hm
      rw [start_length] at h4
      exact .regexp h4 h5

end Sereal
