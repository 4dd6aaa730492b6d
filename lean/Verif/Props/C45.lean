import Verif.Props.C17
/-
C45: ZIGZAG items decode as the specification says.
-/
namespace Sereal

/-- The number a ZIGZAG payload denotes (sereal_spec.pod: 0 ↦ 0, 1 ↦ -1, 2 ↦ 1, 3 ↦ -2, ...). -/
def zigzagOf (n : Nat) : Int := if n % 2 = 0 then (n : Int) / 2 else -(((n : Int) + 1) / 2)

/-- A raw document whose body starts with a ZIGZAG item with payload `n`. -/
def ZigzagDoc (b : Bytes) (n : Nat) : Prop :=
  ∃ ver lenField suffix pay rest, IsDoc b ver 0 lenField suffix (0x21 :: (pay ++ rest)) ∧
    IsVarint pay ∧ pay.length ≤ 10 ∧ groups pay = n ∧ n < 2 ^ 64

/-- The full claim. -/
def ZigzagExact : Prop :=
  ∀ (cfg : DCfg) (cs : Codecs) (b : Bytes) (n : Nat), ZigzagDoc b n →
    ∃ h i, unmarshal cfg cs b = .ok (h, .int .int i) ∧ i.toInt = zigzagOf n

/-- What the decoder yields for every payload: the negative reading. -/
theorem C45_actual (cfg : DCfg) (cs : Codecs) (b : Bytes) (n : Nat) (hd : ZigzagDoc b n) :
    ∃ h i, unmarshal cfg cs b = .ok (h, .int .int i) ∧ i.toInt = -((n : Int) / 2 + 1) := by
  obtain ⟨ver, lf, suf, pay, rest, hd, hp, hl, hg, hn⟩ := hd
  obtain ⟨pre, -, -, -, hpre⟩ := itemBuf_pre ver 0 lf suf
  have hbuf := hpre (0x21 :: (pay ++ rest))
  have hden : Denotes goDialect (pre ++ 0x21 :: (pay ++ rest)) pre.length
      (.int (-((n / 2 : Nat) + 1))) (pre.length + 1 + pay.length) := by
    refine ⟨_, .plain (.here (getElem?_pre _ _ _) (by decide)) (by decide) (.zigzag (n := n) ?_ rfl)⟩
    have h1 := Vint.pre (d := goDialect) (n := n) (pre ++ [0x21]) rest hp hl (by
      simp only [goDialect, hg, Nat.mod_eq_of_lt hn])
    simpa using h1
  have hlen := hd.buf_lt
  have hb := bodyInput_raw (cs := cs) hd
  rw [hbuf] at hlen hb
  obtain ⟨h, v, h1, h2⟩ := unmarshal_complete (cfg := cfg) hb hlen hden .int
  rcases h2.int_inv with ⟨i, rfl, hi⟩ | ⟨u, rfl, hu, hi⟩
  · exact ⟨h, i, h1, by rw [hi]; omega⟩
  · exfalso; omega

/-- What holds: odd payloads, that is negative numbers, decode as specified.  Missing: even payloads
(`C45_fails`). -/
theorem C45_partial (cfg : DCfg) (cs : Codecs) (b : Bytes) (n : Nat) (hd : ZigzagDoc b n)
    (hodd : n % 2 = 1) :
    ∃ h i, unmarshal cfg cs b = .ok (h, .int .int i) ∧ i.toInt = zigzagOf n := by
  obtain ⟨h, i, h1, h2⟩ := C45_actual cfg cs b n hd
  refine ⟨h, i, h1, ?_⟩
  rw [h2, zigzagOf, if_neg (by omega)]
  omega

/-- Every even payload decodes to a wrong number. -/
theorem C45_fails (cfg : DCfg) (cs : Codecs) (b : Bytes) (n : Nat) (hd : ZigzagDoc b n)
    (heven : n % 2 = 0) :
    ∃ h i, unmarshal cfg cs b = .ok (h, .int .int i) ∧ i.toInt ≠ zigzagOf n := by
  obtain ⟨h, i, h1, h2⟩ := C45_actual cfg cs b n hd
  refine ⟨h, i, h1, ?_⟩
  rw [h2, zigzagOf, if_pos heven]
  omega

theorem zigzagDoc2 : ZigzagDoc docZigzag 2 :=
  ⟨2, [0], [], [2], [], docZigzag_isDoc, by simp [IsVarint], by simp, by decide, by decide⟩

/-- The full claim fails on the document `docZigzag`. -/
theorem C45_full_fails : ¬ ZigzagExact := by
  intro hall
  let cs : Codecs := ⟨fun _ => .ok [], fun _ => .ok [], fun _ _ => .ok [], fun _ => .ok (),
    fun _ => .ok [], fun _ _ => .ok [], fun _ => .ok []⟩
  obtain ⟨h, i, h1, h2⟩ := hall {} cs docZigzag 2 zigzagDoc2
  obtain ⟨h', i', h1', h2'⟩ := C45_fails {} cs docZigzag 2 zigzagDoc2 rfl
  rw [h1] at h1'
  cases h1'
  exact h2' h2

/-- Non-vacuity of `C45_partial`: payload 299, i.e. -150. -/
example : ZigzagDoc [0x3d, 0x73, 0x72, 0x6c, 2, 0, 0x21, 0xab, 2] 299 ∧ 299 % 2 = 1 ∧
    zigzagOf 299 = -150 :=
  ⟨⟨2, [0], [], [0xab, 2], [], ⟨by decide, by omega, by omega, by simp [IsVarint], by simp, by decide,
    by decide⟩, by simp [IsVarint], by simp, by decide, by decide⟩, rfl, by decide⟩

end Sereal
