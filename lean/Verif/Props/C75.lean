import Verif.Model.Fuzz
import Verif.Proof.Usual
import Verif.Props.C13
import Verif.Props.C73
import Verif.Props.C74
/-
C75: the fuzz target of the package finds no bug.
-/
namespace Sereal

/-- An Encoder with the default settings; the rest is about the run. -/
def DefaultEncoder (cfg : ECfg) : Prop :=
  cfg.version = 3 ∧ cfg.perlCompat = false ∧ cfg.compression = none ∧ cfg.disableDedup = false ∧ cfg.disableFreeze = false ∧
    cfg.maxRecursionDepth = 0 ∧ ∀ n ks, (cfg.ord n ks).Perm ks

/-- The full claim: Fuzz returns, whatever the input. -/
def FuzzReturns : Prop :=
  ∀ (cfg : ECfg) (cs : Codecs) (data : Bytes), DefaultEncoder cfg → ∃ n, fuzz cfg cs data = .ret n

/-- The value is not a NaN: not all bits of the exponent are set, or none of the fraction (IEEE 754). -/
def NotNaN : Val → Prop
  | .f32 u => u.toNat / 2 ^ 23 % 2 ^ 8 = 2 ^ 8 - 1 → u.toNat % 2 ^ 23 = 0
  | .f64 u => u.toNat / 2 ^ 52 % 2 ^ 11 = 2 ^ 11 - 1 → u.toNat % 2 ^ 52 = 0
  | _ => True

/-- The infinities are no NaNs, the number the hardware makes of 0/0 is one. -/
example : NotNaN (.f32 0x7f800000) ∧ NotNaN (.f64 0xfff0000000000000) ∧ ¬ NotNaN (.f64 0x7ff8000000000000) := by
  unfold NotNaN; decide

theorem NotNaN.f32 {u : UInt32} (h : NotNaN (.f32 u)) : isNaN32 u = false := by
  unfold NotNaN at h
  unfold isNaN32
  rw [decide_eq_false_iff_not]
  omega

theorem NotNaN.f64 {u : UInt64} (h : NotNaN (.f64 u)) : isNaN64 u = false := by
  unfold NotNaN at h
  unfold isNaN64
  rw [decide_eq_false_iff_not]
  omega

theorem ReachesVal.head {c : ECfg} {h : Heap} {v w u : Val} (hl : Leads c h v w) (hr : ReachesVal c h w u) : ReachesVal c h v u := by
  induction hr with
  | refl => exact .step .refl hl
  | step _ h ih => exact .step ih h

/-- What has arrived as the same data is equal for cmp.Equal, unless there are NaNs. -/
theorem Shows.cmpEqual {w : ViewCfg} {h h' : Heap} {v v' : Val} {t : Tree} {n : Nat} (hs : Shows w h v t) (ht : Storable w n t)
    (hp : w.perlCompat = false) (c : ECfg) (hn : ∀ u, ReachesVal c h v u → NotNaN u) (hu' : h'.Usual {})
    (hv' : v'.Usual {}) (hi : Iso h h' v v') : CmpEqual h h' v v' := by
  induction hs generalizing n v' with
  | undef _ => cases hi; exact .nil
  | cundef _ => cases hi; exact .nil
  | undefP h1 => exact not_both hp h1
  | cundefP h1 => exact not_both hp h1
  | bool => cases hi; exact .bool
  | int => cases hi; exact .int
  | uint => cases hi; exact .uint
  | f32 =>
    cases hi
    have := (hn _ .refl).f32
    exact .f32 ⟨this, this, .inl rfl⟩
  | f64 =>
    cases hi
    have := (hn _ .refl).f64
    exact .f64 ⟨this, this, .inl rfl⟩
  | str => cases hi; exact .str
  | bin => cases hi; exact .bin
  | @arr p ts f hm _ ih =>
    cases ht with
    | arr ht =>
      cases hi with
      | slice hi =>
        refine .slice fun i hlt => ?_
        have h1 := hi i hlt
        have e := Heap.cellAt_eq (hm i hlt)
        rw [e] at h1 ⊢
        refine ih i _ (List.getElem?_eq_getElem hlt) (ht _ (List.getElem_mem hlt)) (fun u hu => hn u (.head ?_ hu)) (hu'.cell _) h1
        rw [← e]
        exact .inl (.elem hlt)
  | @map m kvs es hm _ hdom _ ih =>
    cases ht with
    | map ht =>
      cases hi with
      | smap _ _ h1 h2 =>
        refine .smap h1 fun k x x' e e' => ?_
        have e0 : mapLookup k es = some x := by rw [← mapAt_mp hm]; exact e
        have hsome : (lastLookup k kvs).isSome = true := by rw [← hdom, e0]; rfl
        obtain ⟨t, et⟩ := Option.isSome_iff_exists.1 hsome
        exact ih k x t e0 et (ht k t et) (fun u hu => hn u (.head (.inl (.entry e)) hu)) (hu'.entry _ _ _ e') (h2 k x x' e e')
  | ref _ _ ih =>
    cases ht with
    | ref _ h => exact ih h hn hv' hi
    | refP h1 _ => exact not_both hp h1
  | weak _ _ ih =>
    cases ht with
    | weak _ h => exact ih h hn hv' hi
    | weakP h1 _ => exact not_both hp h1
  | obj _ _ ih =>
    cases ht with
    | obj _ h => exact ih h hn hv' hi
    | objP h1 _ => exact not_both hp h1
  | refP h1 => exact not_both hp h1
  | weakP h1 => exact not_both hp h1
  | objP h1 => exact not_both hp h1
  | refp h1 =>
    cases ht with
    | refp h2 _ => exact not_both h1 h2
  | refpI _ _ ih => cases ht with | refp _ h => exact ih h hn hv' hi
  | alias _ ih => cases ht with | alias h => exact ih h hn hv' hi
  | openRef => cases ht
  | frozen => cases ht
  | thawed => cases ht
  | @regexp a p m hm =>
    cases hi with
    | @ptr b b' _ a' hi =>
      cases b' with
      | true => cases hv'
      | false =>
        refine .ptr ?_
        rw [Heap.cellAt_eq hm] at hi ⊢
        generalize h'.cellAt a' = x at hi ⊢
        cases hi
        exact .regexp

/-- The checks of Fuzz. -/
theorem fuzz_doc {b : Bytes} {ver dt : Nat} {lf suf body : Bytes} (hd : IsDoc b ver dt lf suf body) (cfg : ECfg) (cs : Codecs) :
    fuzz cfg cs b = if ver = 4 ∨ dt = 1 ∨ dt = 2 ∨ dt = 3 then .ret 0 else fuzzBody cfg cs b := by
  have hl := headBytes_length ver dt lf suf
  have hbs := hd.bodyStart
  have hv := hd.version
  unfold fuzz
  rw [readHeader_head hd.head]
  dsimp only
  rw [hbs, if_neg (by
    have : b.length = (headBytes ver dt lf suf).length + body.length := by rw [hd.eq_head]; simp
    omega), show (Head.hdr ver dt lf).version = ver from rfl, show (Head.hdr ver dt lf).doctype = dt from rfl]
  simp only [serealSnappy, serealSnappyIncremental, serealZlib]
  by_cases h4 : ver = 4
  · rw [if_pos (by omega), if_pos (.inl h4)]
  · rw [if_neg (by omega)]
    by_cases h5 : dt = 1 ∨ dt = 2 ∨ dt = 3
    · rw [if_pos (.inr h5)]; exact if_pos h5
    · rw [if_neg (by omega)]; exact if_neg h5

theorem panics_ne {s t : String} (h : s ≠ t) : FuzzEnd.panics s ≠ .panics t := by
  intro e
  injection e with e
  exact h e

/-- What holds, for proper documents `b` (the header fits and its length is below 2^63) and all orders of maps and addresses:
* Fuzz returns 0 if the document is compressed or of version 4, and if Unmarshal fails.
* For every other document, Fuzz returns 1 if the tree the document denotes is `Storable` (no frozen objects, no REFP, fewer than
  2^31-1 levels) and there is no NaN in the data.
* In any case Fuzz does not run into a runtime error, and panics with "unable to marshal" only if Marshal has reached the limit for
  nesting.
(`hsz`: no document of 2^63 bytes is made.) Missing: frozen objects, REFP, NaNs, for which the claim is false. -/
theorem C75_partial (cfg : ECfg) (cs : Codecs) (b : Bytes) (ver dt : Nat) (lf suf body : Bytes) (hcfg : DefaultEncoder cfg)
    (hd : IsDoc b ver dt lf suf body)
    (hsz : ∀ h v doc, unmarshal {} cs b = .ok (h, v) → marshal cfg cs h v = .ok doc → doc.length < 2 ^ 63) :
    (ver = 4 ∨ dt = 1 ∨ dt = 2 ∨ dt = 3 ∨ (∀ r, unmarshal {} cs b ≠ .ok r) → dt ≤ 3 → fuzz cfg cs b = .ret 0) ∧
    (dt = 0 → ver ≤ 3 → ∀ t j h v, unmarshal {} cs b = .ok (h, v) →
      Denotes goDialect (itemBuf ver (headBytes ver 0 lf suf) body).1 (itemBuf ver (headBytes ver 0 lf suf) body).2 t j →
      Storable ({} : DCfg).view (2 ^ 31 - 2) t → (∀ u, ReachesVal cfg h v u → NotNaN u) → fuzz cfg cs b = .ret 1) ∧
    (dt ≤ 3 → (∀ m, fuzz cfg cs b ≠ .crash m) ∧
      (fuzz cfg cs b = .panics "unable to marshal" →
        ∃ h v, unmarshal {} cs b = .ok (h, v) ∧ marshal cfg cs h v = .error (.err .maxRecursion))) := by
  obtain ⟨c1, c2, c3, c4, c5, c6, c7⟩ := hcfg
  rw [fuzz_doc hd cfg cs]
  have raw : ¬ (ver = 4 ∨ dt = 1 ∨ dt = 2 ∨ dt = 3) → dt ≤ 3 → IsDoc b ver 0 lf suf body := by
    intro h1 h2
    have : dt = 0 := by omega
    subst this
    exact hd
  have marsh : ∀ h v, unmarshal {} cs b = .ok (h, v) →
      (∃ doc, marshal cfg cs h v = .ok doc) ∨ marshal cfg cs h v = .error (.err .maxRecursion) := by
    intro h v hu
    exact C74_partial {} cs b h v (fun _ => rfl) hu cfg c7 c3 (fun h => by cases h)
  have second : ∀ h v doc, unmarshal {} cs b = .ok (h, v) → marshal cfg cs h v = .ok doc →
      (∃ h' v', unmarshal {} cs doc = .ok (h', v')) ∨ ∃ er, unmarshal {} cs doc = .error (.err er) := by
    intro h v doc hu hm
    obtain ⟨lf, suf, body, _, _, hd', -⟩ := raw_body (by omega) c3 hm (hsz h v doc hu hm)
    exact hd'.no_crash {} cs
  refine ⟨fun h1 h2 => ?_, fun h0 h3 t j h v hu hD ht hn => ?_, fun h0 => ?_⟩
  · by_cases hx : ver = 4 ∨ dt = 1 ∨ dt = 2 ∨ dt = 3
    · rw [if_pos hx]
    · rw [if_neg hx]
      have h1 : ∀ r, unmarshal {} cs b ≠ .ok r := by
        rcases h1 with h | h | h | h | h
        · exact (hx (.inl h)).elim
        · exact (hx (.inr (.inl h))).elim
        · exact (hx (.inr (.inr (.inl h)))).elim
        · exact (hx (.inr (.inr (.inr h)))).elim
        · exact h
      rcases (raw hx h2).no_crash {} cs with ⟨h, v, hu⟩ | ⟨er, hu⟩
      · exact (h1 _ hu).elim
      · unfold fuzzBody; rw [hu]
  · subst h0
    rw [if_neg (by omega)]
    have hlim : Limit cfg 2147483647 := .inr ⟨by omega, rfl⟩
    obtain ⟨t', hs, hD', hgo⟩ := C73_partial {} cs b h v hu
    obtain ⟨j', hD'⟩ := hD' _ _ _ _ hd
    obtain ⟨T, g⟩ := hD
    obtain ⟨T', g'⟩ := hD'
    obtain ⟨e, _, _⟩ := g.unique g'
    cases e
    obtain ⟨doc, hm, hdoc⟩ := hgo cfg 2147483647 (by omega) c7 c3 hlim ht (fun h => by cases h)
    obtain ⟨h', v', hu', hi⟩ := hdoc (hsz h v doc hu hm)
    obtain ⟨g1, g2⟩ := unmarshal_usual (cfg := {}) hu'
    unfold fuzzBody
    rw [hu]
    dsimp only
    rw [hm]
    dsimp only
    rw [hu']
    dsimp only
    rw [if_pos (hs.cmpEqual ht rfl cfg hn g1 g2 hi)]
  · by_cases hx : ver = 4 ∨ dt = 1 ∨ dt = 2 ∨ dt = 3
    · rw [if_pos hx]
      exact ⟨(fun m h => by cases h), fun h => by cases h⟩
    · rw [if_neg hx]
      unfold fuzzBody
      rcases (raw hx h0).no_crash {} cs with ⟨h, v, hu⟩ | ⟨er, hu⟩
      · rw [hu]
        dsimp only
        rcases marsh h v hu with ⟨doc, hm⟩ | hm
        · rw [hm]
          dsimp only
          rcases second h v doc hu hm with ⟨h', v', hu'⟩ | ⟨er, hu'⟩
          · rw [hu']
            dsimp only
            split
            · exact ⟨(fun m h => by cases h), fun h => by cases h⟩
            · exact ⟨(fun m h => by cases h), fun h => (panics_ne (by decide) h).elim⟩
          · rw [hu']
            exact ⟨(fun m h => by cases h), fun h => (panics_ne (by decide) h).elim⟩
        · rw [hm]
          exact ⟨(fun m h => by cases h), fun _ => ⟨h, v, rfl, hm⟩⟩
      · rw [hu]
        exact ⟨(fun m h => by cases h), fun h => by cases h⟩

/-- Non-vacuity: the conditions hold for the document [5], for which Fuzz returns 1. -/
example : fuzz {} noCodecs (doc3 [0x2b, 1, 5]) = .ret 1 := by
  have hr : (match unmarshal {} noCodecs (doc3 [0x2b, 1, 5]) with
      | .ok (h, v) => (match v with
        | .slice p n => decide (n = 1 ∧ h.cellAt p = .int .int 5)
        | _ => false) && (match marshal {} noCodecs h v with
        | .ok doc => decide (doc.length = 9)
        | .error _ => true)
      | _ => false) = true := by decide +kernel
  have hd := doc3_isDoc (body := [0x2b, 1, 5]) (by decide)
  cases hu : unmarshal {} noCodecs (doc3 [0x2b, 1, 5]) with
  | error e => rw [hu] at hr; cases hr
  | ok r =>
    obtain ⟨h, v⟩ := r
    rw [hu] at hr
    dsimp only at hr
    rw [Bool.and_eq_true] at hr
    obtain ⟨h1, h2⟩ := hr
    split at h1
    case h_2 => cases h1
    next p n =>
      obtain ⟨rfl, hc⟩ := of_decide_eq_true h1
      refine (C75_partial {} noCodecs (doc3 [0x2b, 1, 5]) 3 0 [0] [] [0x2b, 1, 5]
        ⟨rfl, rfl, rfl, rfl, rfl, rfl, fun _ ks => List.Perm.refl ks⟩ hd ?_).2.1 rfl (by omega) (.arr [.int 5]) 4 h _ hu
        ⟨_, .plain (.here rfl (by decide)) (by decide) (.array (n := 1) (.here rfl (by decide) (by decide)) (by decide)
          (.itemsCons (.plain (.here rfl (by decide)) (by decide) (.int (n := 5))) .itemsNil))⟩
        (.arr (n := 2 ^ 31 - 3) fun t ht => ?_) ?_
      · intro h' v' doc e1 e2
        rw [hu] at e1
        cases e1
        rw [e2] at h2
        have := of_decide_eq_true h2
        omega
      · rw [List.mem_singleton] at ht
        subst ht
        exact .int
      · intro u hreach
        have : u = .slice p 1 ∨ u = .int .int 5 := by
          induction hreach with
          | refl => exact .inl rfl
          | step _ hl ih =>
            rcases ih with rfl | rfl
            · rcases hl with g | g | ⟨a, g | ⟨g, -⟩, -⟩
              · cases g with
                | @elem _ _ i hi =>
                  have : i = 0 := by omega
                  subst this
                  exact .inr hc
              all_goals cases g
            · rcases hl with g | g | ⟨a, g | ⟨g, -⟩, -⟩ <;> cases g
        rcases this with rfl | rfl <;> trivial

/-- An array that contains itself: Marshal nests until the limit is reached. -/
theorem C75_fails_loop (cfg : ECfg) (hcfg : DefaultEncoder cfg) : fuzz cfg noCodecs docWheel = .panics "unable to marshal" := by
  obtain ⟨h, v, hu, hm⟩ := C74_loop
  rw [fuzz_doc (b := docWheel) (doc3_isDoc (body := [0xab, 1, 0x2e, 1]) (by decide)), if_neg (by omega)]
  unfold fuzzBody
  rw [hu]
  dsimp only
  rw [hm cfg noCodecs hcfg.2.2.2.2.2.2 hcfg.2.2.1]

/-- A NaN is not equal to itself. -/
def docNaN : Bytes := doc3 [0x22, 0, 0, 0xc0, 0x7f]

/-- Unmarshal, Marshal and Unmarshal of a document with a float. -/
theorem docNaN_run : (match unmarshal {} noCodecs docNaN with
    | .ok (h, v) => decide (v = .f32 0x7fc00000) && (match marshal {} noCodecs h v with
      | .ok doc => decide (doc = docNaN)
      | .error _ => false)
    | _ => false) = true := by decide +kernel

theorem C75_fails_nan : fuzz {} noCodecs docNaN = .panics "failed to roundtrip" := by
  have hr := docNaN_run
  rw [fuzz_doc (b := docNaN) (doc3_isDoc (body := [0x22, 0, 0, 0xc0, 0x7f]) (by decide)), if_neg (by omega)]
  unfold fuzzBody
  cases hu : unmarshal {} noCodecs docNaN with
  | error e => rw [hu] at hr; cases hr
  | ok r =>
    obtain ⟨h, v⟩ := r
    rw [hu] at hr
    dsimp only at hr
    rw [Bool.and_eq_true] at hr
    obtain ⟨h1, h2⟩ := hr
    have h1 := of_decide_eq_true h1
    subst h1
    cases hm : marshal {} noCodecs h (.f32 0x7fc00000) with
    | error e => rw [hm] at h2; cases h2
    | ok doc =>
      rw [hm] at h2
      have h2 := of_decide_eq_true h2
      subst h2
      dsimp only
      rw [hm]
      dsimp only
      rw [hu]
      dsimp only
      rw [if_neg]
      intro hc
      cases hc with
      | f32 h => exact absurd h.1 (by decide)

/-- The check of the header length lets pass what Unmarshal cannot take: the body would begin at offset 0. -/
theorem C75_fails_crash (cfg : ECfg) (cs : Codecs) : fuzz cfg cs docNegative = .crash "slice bounds out of range" := by
  have h1 : readHeader docNegative = .ok { doctype := 0, version := 3, suffixStart := 15, suffixSize := -5 } := by decide
  unfold fuzz fuzzBody
  rw [h1, C13_body_fails]
  rfl

theorem C75_fails : ¬ FuzzReturns := by
  intro H
  obtain ⟨n, hn⟩ := H {} noCodecs docNegative ⟨rfl, rfl, rfl, rfl, rfl, rfl, fun _ ks => List.Perm.refl ks⟩
  rw [C75_fails_crash] at hn
  cases hn

end Sereal
