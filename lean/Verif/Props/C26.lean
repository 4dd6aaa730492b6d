import Verif.Proof.Nest
import Verif.Props.C01
/-
C26: the recursion limit is exact, and Marshal of cyclic slices and maps returns.
-/
namespace Sereal

theorem marshal_refuses {cfg : ECfg} {cs : Codecs} {inp : Heap} {v : Val}
    (h : ∀ pre, encodeAfter cfg inp pre v = .error (.err .maxRecursion)) :
    marshal cfg cs inp v = .error (.err .maxRecursion) := by
  unfold marshal marshalWithHeader marshalRaw
  simp only [headerSuffix]
  rw [show ∀ f : Bytes → Res Bytes, (Except.ok [0] >>= f : Res Bytes) = f [0] from fun _ => rfl]
  rw [h]
  rfl

/-- C26.  `v` is any data built from leaves, []interface{} and map[string]interface{}, possibly cyclic.
With MaxRecursionDepth = n > 0: if its nesting depth is at least n (that is: not at most n-1) then
Marshal returns ErrMaxRecursionLimit, whatever the other settings; if it is less, Marshal succeeds (no
compressor set) and in no case returns that error.  On cyclic data Marshal always returns
ErrMaxRecursionLimit, also with the default limit. -/
theorem C26 (cfg : ECfg) (cs : Codecs) (inp : Heap) (v : Val) (hord : ∀ n ks, (cfg.ord n ks).Perm ks)
    (hd : Data inp v) :
    (∀ n : Nat, 0 < n → cfg.maxRecursionDepth = n →
      (¬ DepthLe inp (n - 1) v → marshal cfg cs inp v = .error (.err .maxRecursion)) ∧
      (DepthLe inp (n - 1) v → cfg.compression = none → ∃ doc, marshal cfg cs inp v = .ok doc) ∧
      (cfg.compression = none →
        (marshal cfg cs inp v = .error (.err .maxRecursion) ↔ ¬ DepthLe inp (n - 1) v))) ∧
    (Cyclic inp v → marshal cfg cs inp v = .error (.err .maxRecursion)) := by
  have no := fun pre => (encodeAfter_data (c := cfg) hord hd pre).2
  have yes := fun pre => (encodeAfter_data (c := cfg) hord hd pre).1
  have ok : DepthLe inp (remainingRecursion cfg.maxRecursionDepth - 1) v → cfg.compression = none →
      ∃ doc, marshal cfg cs inp v = .ok doc := by
    intro h hc
    obtain ⟨w, hw⟩ := yes (if cfg.ver = 1 then encHeader cfg [0] serealRaw else [0]) h
    exact ⟨_, marshal_ok.2 ⟨[0], w, rfl, hw, .inl ⟨hc, rfl⟩⟩⟩
  constructor
  · intro n hn hm
    have hr : remainingRecursion cfg.maxRecursionDepth = n := by
      rw [hm]; unfold remainingRecursion; rw [if_neg (by omega)]; omega
    rw [hr] at no ok
    refine ⟨fun h => marshal_refuses (fun pre => no pre h), ok, fun hc => ⟨fun h hde => ?_, fun h => marshal_refuses (fun pre => no pre h)⟩⟩
    obtain ⟨doc, hdoc⟩ := ok hde hc
    rw [hdoc] at h
    cases h
  · intro hcy
    exact marshal_refuses (fun pre => no pre (hcy.not_depthLe _))

/-! ### Examples -/

/-- s := []interface{}{1, nil}; s[1] = s. -/
def cyclicHeap : Heap where
  mem a := if a = 1 then .cell (.int .int 1) else if a = 2 then .cell (.slice 1 2) else .cell .nil
  next := 3

theorem cyclicHeap_data : Data cyclicHeap (.slice 1 2) := by
  intro w hw
  have : w = .slice 1 2 ∨ w = .int .int 1 := by
    induction hw with
    | refl => exact .inl rfl
    | step _ hc ih =>
      rcases ih with rfl | rfl
      · cases hc with
        | elem hi =>
          rename_i i
          have : i = 0 ∨ i = 1 := by omega
          rcases this with rfl | rfl
          · exact .inr rfl
          · exact .inl rfl
      · cases hc
  rcases this with rfl | rfl
  · exact .inr trivial
  · exact .inl trivial

/-- Non-vacuity: a cyclic slice. -/
example : Data cyclicHeap (.slice 1 2) ∧ Cyclic cyclicHeap (.slice 1 2) :=
  ⟨cyclicHeap_data, _, .refl, .child (.elem (i := 1) (by omega))⟩

/-- Non-vacuity: the sample map has depth 2, so limit 3 is enough and limit 2 is not. -/
example : (marshal { maxRecursionDepth := 3 } noCodecs sampleHeap (.smap 1)).isOk = true ∧
    marshal { maxRecursionDepth := 2 } noCodecs sampleHeap (.smap 1) = .error (.err .maxRecursion) := by
  decide +kernel

end Sereal
