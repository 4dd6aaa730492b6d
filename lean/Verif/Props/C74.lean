import Verif.Proof.Usual
import Verif.Props.C18
import Verif.Props.C66
/-
C74: Marshal has a form for everything that Unmarshal yields.
-/
namespace Sereal

/-- The full claim: Marshal succeeds on whatever Unmarshal yields, if the limit for nesting is high enough. -/
def DecodedDataMarshals : Prop :=
  ∀ (dcfg : DCfg) (cs : Codecs) (b : Bytes) (h : Heap) (v : Val), unmarshal dcfg cs b = .ok (h, v) →
    ∃ n : Nat, ∀ cfg : ECfg, (∀ n ks, (cfg.ord n ks).Perm ks) → cfg.compression = none → cfg.maxRecursionDepth = n →
      ∃ doc, marshal cfg cs h v = .ok doc

/-- What holds, for every document Unmarshal accepts (references of all kinds, cycles and compressed documents included) when no class
is registered, and every Encoder without compressor: Marshal succeeds or returns ErrMaxRecursionLimit.  There is no value in the
result that Marshal has no form for.  With PerlCompat the decoder makes pointers of type *interface{}; none of those inside
the result may lead to a string.
Missing: that some limit is high enough, which is false (C74_fails); C74_finite_partial has it for finite data. -/
theorem C74_partial (dcfg : DCfg) (cs : Codecs) (b : Bytes) (h : Heap) (v : Val) (hreg : ∀ cls, dcfg.registry cls = none)
    (hu : unmarshal dcfg cs b = .ok (h, v)) (cfg : ECfg) (hord : ∀ n ks, (cfg.ord n ks).Perm ks) (hc : cfg.compression = none)
    (hp : dcfg.perlCompat = true → ∀ a, ReachesVal cfg h v (.ptr true a) → ¬ Stringy (h.cellAt a)) :
    (∃ doc, marshal cfg cs h v = .ok doc) ∨ marshal cfg cs h v = .error (.err .maxRecursion) := by
  obtain ⟨n, hn⟩ : ∃ n, Limit cfg n := by
    by_cases h : cfg.maxRecursionDepth ≤ 0
    · exact ⟨_, .inr ⟨h, rfl⟩⟩
    · exact ⟨cfg.maxRecursionDepth.toNat, .inl ⟨by omega, by omega⟩⟩
  obtain ⟨h1, h2⟩ := unmarshal_usual hu
  exact (C66 cfg cs h none v n hord hc hn).2.2.1 (by rintro hv ⟨g, _⟩; cases g) (Usual.handled hreg h1 h2 hp)

/-- If in addition the data is finite (there is no infinite path through it), some limit is high enough. -/
theorem C74_finite_partial (dcfg : DCfg) (cs : Codecs) (b : Bytes) (h : Heap) (v : Val) (hreg : ∀ cls, dcfg.registry cls = none)
    (hu : unmarshal dcfg cs b = .ok (h, v)) (cfg : ECfg) (hord : ∀ n ks, (cfg.ord n ks).Perm ks) (hc : cfg.compression = none)
    (hp : dcfg.perlCompat = true → ∀ a, ReachesVal cfg h v (.ptr true a) → ¬ Stringy (h.cellAt a))
    (hfin : Acc (fun u w => Leads cfg h w u) v) :
    ∃ n, ∀ m : Nat, n ≤ m → ∃ doc, marshal { cfg with maxRecursionDepth := m } cs h v = .ok doc := by
  obtain ⟨h1, h2⟩ := unmarshal_usual hu
  obtain ⟨n, hw⟩ := (Usual.handled hreg h1 h2 hp).writable hfin
  refine ⟨n + 1, fun m hm => ?_⟩
  have hn : Limit { cfg with maxRecursionDepth := m } m := .inl ⟨by omega, rfl⟩
  refine (C66 { cfg with maxRecursionDepth := m } cs h none v m hord hc hn).1 (by rintro hv ⟨g, _⟩; cases g) ?_
  exact ((hw _).more (by omega)).limit m

theorem Looped.not_writable {c : ECfg} {h : Heap} {p : Addr} (hl : h.cellAt p = .slice p 1) {S : Addr → Prop} {n : Nat} {v : Val}
    (hw : Writable c h S n v) : v ≠ .slice p 1 := by
  induction hw with
  | plain h => rintro rfl; exact h
  | level _ _ _ _ ih =>
    rintro rfl
    exact ih (h.cellAt (p + 0)) (.elem (by omega)) hl
  | seen h _ _ => rintro rfl; rcases h with h | ⟨h, -⟩ <;> cases h
  | ptr h _ _ _ => rintro rfl; rcases h with h | ⟨h, -⟩ <;> cases h
  | same h _ _ => rintro rfl; cases h
  | freeze _ => intro h; cases h

theorem Looped.noPointers {c : ECfg} {h : Heap} {p : Addr} (hl : h.cellAt p = .slice p 1) :
    NoPointers c h (.slice p 1) ∧ Handled c h (.slice p 1) := by
  have leads : ∀ u, Leads c h (.slice p 1) u → u = .slice p 1 := by
    rintro u (g | g | ⟨a, g | ⟨g, -⟩, -⟩)
    · cases g with
      | @elem _ _ i hi =>
        have : i = 0 := by omega
        subst this
        exact hl
    all_goals cases g
  refine ⟨⟨(· = .slice p 1), rfl, ?_⟩, ⟨(· = .slice p 1), rfl, ?_⟩⟩
  · rintro w rfl
    refine ⟨?_, leads⟩
    rintro a (g | ⟨g, -⟩) <;> cases g
  · rintro w rfl
    exact ⟨id, leads⟩

/-- An array whose only element is an ALIAS of the array. -/
def docWheel : Bytes := doc3 [0xab, 1, 0x2e, 1]

theorem docWheel_run : (match unmarshal {} noCodecs docWheel with
    | .ok (h, .slice p n) => decide (n = 1 ∧ h.cellAt p = .slice p 1)
    | _ => false) = true := by decide +kernel

/-- Ten bytes from which Unmarshal makes a slice that is its own element.  Whatever the limit, Marshal nests up to the limit and
returns ErrMaxRecursionLimit.  (The default limit is 2^31-1, so that the program first runs out of stack, which cannot be recovered.) -/
theorem C74_loop : ∃ h v, unmarshal {} noCodecs docWheel = .ok (h, v) ∧
    ∀ (cfg : ECfg) (cs : Codecs), (∀ n ks, (cfg.ord n ks).Perm ks) → cfg.compression = none →
      marshal cfg cs h v = .error (.err .maxRecursion) := by
  have hr := docWheel_run
  split at hr
  case h_2 => cases hr
  next h p n hu =>
    obtain ⟨rfl, hl⟩ := of_decide_eq_true hr
    refine ⟨h, _, hu, fun cfg cs hord hc => ?_⟩
    obtain ⟨n, hn⟩ : ∃ n, Limit cfg n := by
      by_cases h : cfg.maxRecursionDepth ≤ 0
      · exact ⟨_, .inr ⟨h, rfl⟩⟩
      · exact ⟨cfg.maxRecursionDepth.toNat, .inl ⟨by omega, by omega⟩⟩
    obtain ⟨h1, h2⟩ := Looped.noPointers (c := cfg) hl
    exact ((C66 cfg cs h none (.slice p 1) n hord hc hn).2.2.2 h1).2 h2 (fun hw => Looped.not_writable hl hw rfl)

theorem C74_fails : ¬ DecodedDataMarshals := by
  intro H
  obtain ⟨h, v, hu, hm⟩ := C74_loop
  obtain ⟨n, hn⟩ := H {} noCodecs docWheel h v hu
  obtain ⟨doc, hd⟩ := hn { maxRecursionDepth := n } (fun _ ks => List.Perm.refl ks) rfl rfl
  rw [hm _ noCodecs (fun _ ks => List.Perm.refl ks) rfl] at hd
  cases hd

/-- Non-vacuity: a document with REFP and FREEZE is accepted, and the result can be marshalled. -/
example : (match unmarshal {} noCodecs (doc3 [0x2b, 3, 0xab, 1, 5, 0x29, 3, 0x32, 0x61, 0x41, 0x28, 0x2b, 1, 0x61, 0x42]) with
    | .ok (h, v) => (marshal {} noCodecs h v).isOk
    | _ => false) = true := by decide +kernel

/-- Non-vacuity of the condition of C74_finite_partial: the slice [5]. -/
example (c : ECfg) (h : Heap) (p : Addr) (hp : h.cellAt p = .int .int 5) : Acc (fun u w => Leads c h w u) (.slice p 1) := by
  refine ⟨_, fun u hu => ?_⟩
  rcases hu with g | g | ⟨a, g | ⟨g, -⟩, -⟩
  · cases g with
    | @elem _ _ i hi =>
      have : i = 0 := by omega
      subst this
      show Acc _ (h.cellAt p)
      rw [hp]
      refine ⟨_, fun u hu => ?_⟩
      rcases hu with g | g | ⟨a, g | ⟨g, -⟩, -⟩ <;> cases g
  all_goals cases g

example : (match unmarshal {} noCodecs (doc3 [0x2b, 1, 5]) with
    | .ok (h, .slice p n) => decide (n = 1 ∧ h.cellAt p = .int .int 5)
    | _ => false) = true := by decide +kernel

end Sereal
