import Verif.Props.C32
/-
C62: json.Numbers that are not integers.
-/
namespace Sereal

/-- The full claim: a json.Number whose text is not an integer is decoded to the float64 of that text (strconv.ParseFloat,
a parameter), and to the identical text if it is not a float64 either. -/
def FractionsKept : Prop :=
  ∀ (cfg : ECfg) (cs : Codecs) (inp : Heap) (dcfg : DCfg) (s : Bytes), cfg.version ≤ 3 →
    (∀ n ks, (cfg.ord n ks).Perm ks) → cfg.compression = none → (∀ z, ¬ IntText s z) → s.length ≤ 2 ^ 31 - 1 →
    ∃ doc, marshal cfg cs inp (.jnum s) = .ok doc ∧ ∃ h v, unmarshal dcfg cs doc = .ok (h, v) ∧
      v = match cfg.parseFloat s with
        | some f => .f64 f
        | none => .str s

/-- "18446744073709551616.5" -/
def bigFraction : Bytes := [49, 56, 52, 52, 54, 55, 52, 52, 48, 55, 51, 55, 48, 57, 53, 53, 49, 54, 49, 54, 46, 53]

theorem bigFraction_not_int (z : Int) : ¬ IntText bigFraction z := by
  intro h
  unfold bigFraction at h
  cases h with
  | plain _ h => exact absurd (h 46 (by decide)) (by decide)

/-- The code does not satisfy it: strconv.ParseInt reports an overflow before it sees the point, and the number is written
as a string. -/
theorem C62_fails :
    (match unmarshal {} noCodecs ((marshal { parseFloat := fun _ => some 0x43f0000000000000 } noCodecs sampleHeap
        (.jnum bigFraction)).toOption.getD []) with
      | .ok (_, .str s) => some s
      | _ => none) = some bigFraction ∧ ¬ FractionsKept := by
  have h1 : (match unmarshal {} noCodecs ((marshal { parseFloat := fun _ => some 0x43f0000000000000 } noCodecs sampleHeap
        (.jnum bigFraction)).toOption.getD []) with
      | .ok (_, .str s) => some s
      | _ => none) = some bigFraction := by decide +kernel
  refine ⟨h1, fun h => ?_⟩
  obtain ⟨doc, hm, h', v, hu, hv⟩ := h { parseFloat := fun _ => some 0x43f0000000000000 } noCodecs sampleHeap {} bigFraction
    (by decide) (fun _ _ => List.Perm.refl _) rfl bigFraction_not_int (by decide)
  rw [hm] at h1
  dsimp only [Except.toOption, Option.getD] at h1
  rw [hu, hv] at h1
  cases h1

/-- What holds: the claim for every text that does not begin with (a sign and) digits of a number of 2^64 or more, and for
every text that is not a float64. -/
theorem C62_partial (cfg : ECfg) (cs : Codecs) (inp : Heap) (dcfg : DCfg) (s : Bytes) (hver : cfg.version ≤ 3)
    (hord : ∀ n ks, (cfg.ord n ks).Perm ks) (hc : cfg.compression = none) (hz : ∀ z, ¬ IntText s z)
    (hs : s.length ≤ 2 ^ 31 - 1) (ho : ¬ DigitOverflow s ∨ cfg.parseFloat s = none) :
    ∃ doc, marshal cfg cs inp (.jnum s) = .ok doc ∧ ∃ h v, unmarshal dcfg cs doc = .ok (h, v) ∧
      v = match cfg.parseFloat s with
        | some f => .f64 f
        | none => .str s := by
  obtain ⟨w, hw, hl⟩ := parseInt_emit cfg s
  have hm := marshal_emit (cfg := cfg) (inp := inp) (v := .jnum s) (w := w) cs hc (fun _ => hw)
  have := varint_lt63 (n := s.length) (by omega)
  obtain ⟨h, v, hu, ha⟩ := arrives cfg cs inp none _ _ dcfg hver hord hc (.jnum hs) (.plain trivial) hm
    (by rw [List.length_append, encHeader0_length hver]; omega)
  refine ⟨_, hm, h, v, hu, ?_⟩
  cases ha with
  | jnumInt h1 _ _ _ => exact absurd h1 (hz _)
  | jnumBig h1 _ => exact absurd h1 (hz _)
  | jnumFloat _ h1 => rw [h1]
  | jnumText _ h1 =>
    have : cfg.parseFloat s = none := by
      rcases h1 with h1 | h1
      · exact h1
      · exact ho.resolve_left fun h => h h1
    rw [this]

/-- "1.5" and "x" meet the conditions. -/
example : (∀ z, ¬ IntText [49, 46, 53] z) ∧ ¬ DigitOverflow [49, 46, 53] ∧ ∀ z, ¬ IntText [120] z := by
  refine ⟨fun z h => ?_, ?_, fun z h => ?_⟩
  · cases h with
    | plain _ h => exact absurd (h 46 (by decide)) (by decide)
  · rintro ⟨sign, ds, rest, h, _, _, hlt⟩
    have hl : ds.length ≤ 3 := by
      have := congrArg List.length h
      simp at this
      omega
    match ds, hl with
    | [], _ => exact absurd hlt (by decide)
    | [a], _ =>
      have := a.toNat_lt
      unfold digitsVal at hlt
      simp at hlt
      omega
    | [a, b], _ =>
      have := a.toNat_lt; have := b.toNat_lt
      unfold digitsVal at hlt
      simp at hlt
      omega
    | [a, b, c], _ =>
      have := a.toNat_lt; have := b.toNat_lt; have := c.toNat_lt
      unfold digitsVal at hlt
      simp at hlt
      omega
  · cases h with
    | plain _ h => exact absurd (h 120 (by decide)) (by decide)

end Sereal
