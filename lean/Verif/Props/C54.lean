import Verif.Props.C37
/-
C54: the merger's compression threshold is exact.
-/
namespace Sereal

/-- C54.  A merger with compression and one without get the same calls of `Append` (of any kind), and `Finish`
succeeds on both.  The documents are the same if there is no compressor, or the threshold is not zero and
the uncompressed document is shorter; otherwise the type nibble says that it is compressed. -/
theorem C54 (c : MCfg) (cs : Codecs) (calls : List MCall) (slack slack' doc raw : Bytes) (s s' : MState)
    (hdoc : mergeFinish c cs slack (appendEach c cs calls {}).2 = (.ok doc, s))
    (hraw : mergeFinish c.uncompressed cs slack' (appendEach c.uncompressed cs calls {}).2 = (.ok raw, s')) :
    ((c.compression = none ∨ (c.threshold ≠ 0 ∧ (raw.length : Int) < c.threshold)) → doc = raw) ∧
    (¬ (c.compression = none ∨ (c.threshold ≠ 0 ∧ (raw.length : Int) < c.threshold)) →
      ∃ t, doc[4]? = some t ∧ t.toNat / 16 ≠ 0) := by
  rw [appendEach_uncompressed] at hraw
  cases happ : appendEach c cs calls {} with
  | mk rs st =>
  rw [happ] at hdoc hraw
  rcases each_state happ with ⟨e, h0⟩ | ⟨s0, h0, hs, hopen⟩
  · unfold mergeFinish at hdoc
    rw [h0] at hdoc
    cases hdoc
  rw [mergeFinish_init h0] at hdoc
  rw [mergeFinish_init (show initMerger c.uncompressed st = .ok s0 from h0)] at hraw
  have hp := mergeFinish_raw hs.inited hopen hraw (fun b _ => by unfold mergeCompresses; split <;> rfl)
  unfold mergeFinish at hdoc
  rw [initMerger_inited hs.inited] at hdoc
  dsimp only at hdoc
  rw [hopen, if_neg (by decide), hp] at hdoc
  dsimp only at hdoc
  have hlen := hs.len
  have hrl := putLength_length hp
  cases hmc : mergeCompresses c raw with
  | none =>
    rw [hmc] at hdoc
    cases hdoc
    refine ⟨fun _ => rfl, fun hn => absurd ?_ hn⟩
    unfold mergeCompresses at hmc
    split at hmc
    · exact .inl hmc
    · exact .inr (by omega)
  | some comp =>
    rw [hmc] at hdoc
    dsimp only at hdoc
    have hcc : c.compression = some comp ∧ (c.threshold = 0 ∨ (raw.length : Int) ≥ c.threshold) := by
      unfold mergeCompresses at hmc
      split at hmc
      · next h => exact ⟨hmc, h⟩
      · cases hmc
    refine ⟨fun hn => ?_, fun _ => ?_⟩
    · rcases hn with hn | hn
      · rw [hcc.1] at hn; cases hn
      · omega
    cases hz : compress cs comp (raw.drop 6) with
    | error e => rw [hz] at hdoc; cases hdoc
    | ok z =>
    rw [hz] at hdoc
    dsimp only at hdoc
    cases hpl : placeCompressed comp raw slack z with
    | error e => rw [hpl] at hdoc; cases hdoc
    | ok placed =>
    rw [hpl] at hdoc
    dsimp only at hdoc
    cases hdt : mergeDocType c comp with
    | error e => rw [hdt] at hdoc; cases hdoc
    | ok dt =>
    rw [hdt] at hdoc
    cases hdoc
    have hdt' : dt = 2 ∨ dt = 3 := by
      cases comp with
      | snappy inc => cases inc <;> cases hdt; exact .inl rfl
      | zlib l =>
        unfold mergeDocType at hdt
        dsimp only at hdt
        split at hdt <;> cases hdt; exact .inr rfl
      | zstd l => cases hdt
    have h4 : ∃ t, placed[4]? = some t := by
      have : 4 < placed.length := by
        unfold placeCompressed at hpl
        split at hpl
        · cases hpl
        · split at hpl <;> cases hpl <;> simp <;> omega
      exact ⟨_, List.getElem?_eq_getElem this⟩
    obtain ⟨t, ht⟩ := h4
    refine ⟨t ||| (UInt8.ofNat dt <<< 4), by simp [ht], ?_⟩
    rcases hdt' with rfl | rfl
    all_goals
      clear ht
      revert t
      apply u8_forall
      set_option maxRecDepth 8000 in decide

/-- A document of 17 bytes: compressed if the threshold is 17, not if it is 18. -/
example : [17, 18].map (fun t : Int => (mergeRun { compression := some (.zlib 1), threshold := t } idCodecs
    [⟨sampleStrDoc, [], 0⟩] [0, 0]).map (fun r => (r.doc[4]?, r.doc.length))) =
    [some (some 0x33, 19), some (some 3, 17)] := by decide +kernel

end Sereal
