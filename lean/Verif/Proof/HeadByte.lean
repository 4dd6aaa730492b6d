import Verif.Proof.Depth
import Verif.Spec.Offsets
/-
The untyped decoder does not depend on the beginning of its buffer unless an offset leads there.  In documents of version
2 and later, byte 0 is the last byte of the header.
-/
namespace Sereal

/-- Two buffers that agree from `lo` on, and have no COPY, OBJECTV and OBJECTV_FREEZE tags with smaller offsets. -/
structure Beside (lo : Nat) (buf buf' : Bytes) : Prop where
  len : buf'.length = buf.length
  at_ : ∀ i, lo ≤ i → buf'[i]? = buf[i]?
  drop : ∀ i, lo ≤ i → buf'.drop i = buf.drop i
  zero : ∀ i b n j, lo ≤ i → buf[i]? = some b → b.toNat % 128 = 0x2f ∨ b.toNat % 128 = 0x2d ∨ b.toNat % 128 = 0x33 →
    Vint goDialect buf (i + 1) n j → lo ≤ n

theorem NoOffsetBelow.beside {pre pre' x : Bytes} {lo : Nat} (h : NoOffsetBelow lo x) (h1 : pre.length = lo)
    (h2 : pre'.length = lo) : Beside lo (pre ++ x) (pre' ++ x) where
  len := by simp [h1, h2]
  at_ := by
    intro i hi
    rw [List.getElem?_append_right (by omega), List.getElem?_append_right (by omega), h1, h2]
  drop := by
    intro i hi
    rw [List.drop_append, List.drop_append, List.drop_eq_nil_of_le (as := pre) (by omega), List.drop_eq_nil_of_le (as := pre') (by omega), h1, h2]
  zero := by
    rintro i b n j hi hb ht ⟨v, hv, hl, hs, hn⟩
    obtain ⟨k, rfl⟩ : ∃ k, i = lo + k := ⟨i - lo, by omega⟩
    by_cases hlt : n < lo
    · exfalso
      rw [List.getElem?_append_right (by omega), h1, Nat.add_sub_cancel_left] at hb
      obtain ⟨hk, hx⟩ := List.getElem?_eq_some_iff.1 hb
      have hg : groups v % 2 ^ 64 = n := by injection hn
      obtain ⟨r, hr⟩ : v <+: x.drop (k + 1) := by
        have := hs.1
        rwa [List.drop_append, List.drop_eq_nil_of_le (as := pre) (by omega), h1, List.nil_append,
          show lo + k + 1 - lo = k + 1 by omega] at this
      obtain ⟨n1, n2, n3⟩ := h (x.take k) b v r (by
        rw [hr, ← hx]
        exact (List.take_append_drop k x).symm.trans (by rw [List.drop_eq_getElem_cons hk])) hv hl (by omega)
      rcases ht with h | h | h
      · exact n1 h
      · exact n2 h
      · exact n3 h
    · omega

/-- The same computation; its result satisfies `Q`. -/
def SameD (Q : α → Prop) (x y : D α) : Prop := x = y ∧ ∀ s a s', x s = (.ok a, s') → Q a

namespace SameD
variable {Q : α → Prop} {R : β → Prop}

theorem refl (x : D α) : SameD (fun _ => True) x x := ⟨rfl, fun _ _ _ _ => trivial⟩

theorem bind {x y : D α} {f g : α → D β} (h : SameD Q x y) (hf : ∀ a, Q a → SameD R (f a) (g a)) :
    SameD R (x >>= f) (y >>= g) := by
  obtain ⟨rfl, h⟩ := h
  constructor
  · funext s
    rw [D.bind_apply, D.bind_apply]
    rcases hr : x s with ⟨r, s'⟩
    cases r with
    | ok a => dsimp only; rw [(hf a (h _ _ _ hr)).1]
    | error e => rfl
  · intro s b s' hb
    obtain ⟨a, s1, h1, h2⟩ := D.bind_ok.1 hb
    exact (hf a (h _ _ _ h1)).2 _ _ _ h2

theorem pure {a : α} (h : Q a) : SameD Q (Pure.pure a : D α) (Pure.pure a) :=
  ⟨rfl, fun _ _ _ he => by obtain ⟨rfl, _⟩ := D.pure_ok.1 he; exact h⟩
theorem err (e : Err) : SameD Q (D.err e : D α) (D.err e) := ⟨rfl, fun _ _ _ he => (D.err_ok.1 he).elim⟩
theorem fail (e : Exn) : SameD Q (D.fail e : D α) (D.fail e) := ⟨rfl, fun _ _ _ he => (D.fail_ok.1 he).elim⟩

theorem then_ (x : D α) {f g : α → D β} (hf : ∀ a, SameD R (f a) (g a)) : SameD R (x >>= f) (x >>= g) :=
  bind (refl x) fun a _ => hf a

theorem failIf {c : Prop} [Decidable c] {e : Exn} {f g : Unit → D β} (h : ¬ c → SameD R (f ()) (g ())) :
    SameD R (D.failIf c e >>= f) (D.failIf c e >>= g) :=
  bind (Q := fun _ => ¬ c) ⟨rfl, fun _ _ _ he => (D.failIf_ok.1 he).1⟩ fun _ hc => h hc

theorem ite {c : Prop} [Decidable c] {x1 x2 y1 y2 : D α} (h1 : c → SameD Q x1 y1) (h2 : ¬ c → SameD Q x2 y2) :
    SameD Q (if c then x1 else x2) (if c then y1 else y2) := by
  by_cases hc : c
  · rw [if_pos hc, if_pos hc]; exact h1 hc
  · rw [if_neg hc, if_neg hc]; exact h2 hc

theorem withCopy {x y : D α} (h : SameD Q x y) : SameD (fun _ => True) (Sereal.withCopy x) (Sereal.withCopy y) := by
  rw [h.1]; exact refl _

end SameD

/-- A position in the part that agrees. -/
def Past (lo j : Nat) : Prop := lo ≤ j

theorem sgn_pos {lo n : Nat} (hlt : n < 2 ^ 64) (h0 : lo ≤ n) (hs : ¬ sgn n < 0) : lo ≤ (sgn n).toNat := by
  by_cases h : n < 2 ^ 63
  · rw [sgn_small h]; omega
  · exact absurd (sgn_big (by omega) hlt) hs

theorem untracked_copy (b : UInt8) : b &&& ~~~ trackFlag = typeCOPY → b.toNat % 128 = 0x2f := by
  revert b; apply u8_forall; set_option maxRecDepth 8000 in decide

section
variable {lo : Nat} {buf buf' : Bytes} (H : Beside lo buf buf')
include H

theorem SameD.byteAt {i : Nat} (hi : lo ≤ i) : SameD (fun _ => True) (Sereal.byteAt buf i) (Sereal.byteAt buf' i) := by
  unfold Sereal.byteAt
  rw [H.at_ i hi]
  exact SameD.refl _

theorem SameD.sliceRange {i j : Nat} (hi : lo ≤ i) : SameD (fun _ => True) (Sereal.sliceRange buf i j) (Sereal.sliceRange buf' i j) := by
  unfold Sereal.sliceRange
  rw [H.drop i hi, H.len]
  exact SameD.refl _

theorem SameD.varintAt {i : Nat} (hi : lo ≤ i) :
    SameD (fun p => ∃ n, Vint goDialect buf i n (i + p.2) ∧ p.1 = sgn n ∧ n < 2 ^ 64) (Sereal.varintAt buf i) (Sereal.varintAt buf' i) := by
  constructor
  · unfold Sereal.varintAt sliceFrom
    rw [H.drop i hi, H.len]
  · rintro s ⟨r, sz⟩ s' h
    exact (varintAt_ok_iff.1 h).2

theorem skipPad_beside {i : Nat} (hi : lo ≤ i) : skipPad buf' i = skipPad buf i := by
  fun_induction skipPad buf i with
  | case1 i h =>
    unfold skipPad
    split
    · rfl
    · next h' => rw [H.at_ i hi, h] at h'; cases h'
  | case2 i tag h h1 ih =>
    rw [← ih (by omega)]
    conv => lhs; unfold skipPad
    split
    · next h' => rw [H.at_ i hi, h] at h'; cases h'
    · next t h' =>
      rw [H.at_ i hi, h] at h'; cases h'
      rw [if_pos h1]
  | case3 i tag h h1 =>
    unfold skipPad
    split
    · next h' => rw [H.at_ i hi, h] at h'; cases h'
    · next t h' =>
      rw [H.at_ i hi, h] at h'; cases h'
      rw [if_neg h1]

theorem SameD.skipPad {i : Nat} (hi : lo ≤ i) :
    SameD (fun p : Nat × UInt8 => lo ≤ p.1 ∧ buf[p.1]? = some p.2) (D.lift (Sereal.skipPad buf i)) (D.lift (Sereal.skipPad buf' i)) := by
  constructor
  · rw [skipPad_beside H hi]
  · rintro s ⟨k, b⟩ s' h
    have ht := skipPad_ok.1 (D.lift_ok.1 h).1
    exact ⟨Nat.le_trans hi ht.le, ht.2.2.1⟩

theorem SameD.stringishF (f : Nat) {i : Nat} (hi : lo ≤ i) :
    SameD (fun p => Past lo p.2) (decodeStringishF buf f i) (decodeStringishF buf' f i) := by
  induction f generalizing i with
  | zero => exact SameD.fail _
  | succ f ih =>
    unfold decodeStringishF
    refine SameD.then_ _ fun _ => SameD.bind (SameD.skipPad H hi) fun p hp => ?_
    obtain ⟨hp1, hp2⟩ := hp
    dsimp only
    have hb : ∀ x : Nat, Past lo (p.1 + 1 + x) := fun x => by unfold Past; omega
    refine SameD.ite (fun _ => ?_) fun _ => SameD.ite (fun _ => ?_) fun _ => SameD.ite (fun hc => ?_) fun _ => SameD.err _
    · refine SameD.bind (SameD.varintAt H (by omega)) fun q _ => SameD.failIf fun _ => ?_
      rw [H.len]
      refine SameD.failIf fun _ => SameD.bind (SameD.sliceRange H (by omega)) fun _ _ => SameD.pure ?_
      unfold Past; dsimp only; omega
    · rw [H.len]
      refine SameD.failIf fun _ => SameD.bind (SameD.sliceRange H (by omega)) fun _ _ => SameD.pure (hb _)
    · refine SameD.then_ _ fun _ => SameD.failIf fun _ => SameD.bind (SameD.varintAt H (by omega)) fun q hq =>
        SameD.failIf fun ho => ?_
      obtain ⟨n, hn, hs, hlt⟩ := hq
      have h0 : lo ≤ n :=
         H.zero p.1 p.2 n _ hp1 hp2 (Or.inl (untracked_copy _ hc)) hn
      have ho1 : lo ≤ q.1.toNat := by
        rw [hs]; rw [hs] at ho
        exact sgn_pos hlt h0 fun h => ho (Or.inl h)
      exact SameD.bind (SameD.withCopy (ih ho1)) fun _ _ => SameD.pure (hb _)

theorem SameD.stringish {i : Nat} (hi : lo ≤ i) : SameD (fun p => Past lo p.2) (decodeStringish buf i) (decodeStringish buf' i) :=
  SameD.stringishF H 2 hi

theorem SameD.className (v : Bool) {i : Nat} (hi : lo ≤ i) (hz : v = true → ∀ n j, Vint goDialect buf i n j → lo ≤ n) :
    SameD (fun p => Past lo p.2) (decodeClassName buf i v) (decodeClassName buf' i v) := by
  unfold decodeClassName
  refine SameD.ite (fun hv => ?_) (fun _ => SameD.stringish H hi)
  refine SameD.bind (SameD.varintAt H hi) fun q hq => SameD.failIf fun ho => ?_
  obtain ⟨n, hn, hs, hlt⟩ := hq
  have ho1 : lo ≤ q.1.toNat := by
    rw [hs]; rw [hs] at ho
    exact sgn_pos hlt (hz hv n _ hn) ho
  refine SameD.bind (SameD.stringish H ho1) fun _ _ => SameD.pure ?_
  unfold Past; dsimp only; omega

theorem SameD.binary {i : Nat} (hi : lo ≤ i) (ln : Int) :
    SameD (fun p => Past lo p.2) (decodeBinary buf i ln) (decodeBinary buf' i ln) := by
  unfold decodeBinary
  refine SameD.failIf fun _ => ?_
  rw [H.len]
  refine SameD.failIf fun _ => SameD.bind (SameD.sliceRange H hi) fun _ _ => SameD.then_ _ fun _ => SameD.pure ?_
  unfold Past; dsimp only; omega

theorem SameD.float {i : Nat} (hi : lo ≤ i) : SameD (fun p => Past lo p.2) (decodeFloat buf i) (decodeFloat buf' i) := by
  unfold decodeFloat
  rw [H.len]
  refine SameD.failIf fun _ => ?_
  repeat (refine SameD.bind (SameD.byteAt H (by omega)) fun _ _ => ?_)
  refine SameD.pure ?_
  unfold Past; dsimp only; omega

theorem SameD.double {i : Nat} (hi : lo ≤ i) : SameD (fun p => Past lo p.2) (decodeDouble buf i) (decodeDouble buf' i) := by
  unfold decodeDouble
  rw [H.len]
  refine SameD.failIf fun _ => ?_
  repeat (refine SameD.bind (SameD.byteAt H (by omega)) fun _ _ => ?_)
  refine SameD.pure ?_
  unfold Past; dsimp only; omega

theorem SameD.regexp {i : Nat} (hi : lo ≤ i) :
    SameD (fun p => Past lo p.2.2) (decodeRegexp buf i) (decodeRegexp buf' i) := by
  unfold decodeRegexp
  exact SameD.bind (SameD.stringish H hi) fun p hp => SameD.bind (SameD.stringish H hp) fun q hq => SameD.pure hq

variable {rec rec' : Nat → Loc → D Nat} (hrec : ∀ i l, lo ≤ i → SameD (Past lo) (rec i l) (rec' i l)) (cfg : DCfg)
include hrec

omit H in
theorem SameD.arrayLoop (n a : Nat) {i : Nat} (hi : lo ≤ i) : SameD (Past lo) (Sereal.arrayLoop rec n a i) (Sereal.arrayLoop rec' n a i) := by
  induction n generalizing a i with
  | zero => exact SameD.pure hi
  | succ n ih => exact SameD.bind (hrec _ _ hi) fun _ h => ih _ h

theorem SameD.hashLoop (m n : Nat) {i : Nat} (hi : lo ≤ i) :
    SameD (Past lo) (Sereal.hashLoop buf rec m n i) (Sereal.hashLoop buf' rec' m n i) := by
  induction n generalizing i with
  | zero => exact SameD.pure hi
  | succ n ih =>
    exact SameD.bind (SameD.stringish H hi) fun p hp => SameD.then_ _ fun _ => SameD.then_ _ fun _ =>
      SameD.bind (hrec _ _ hp) fun _ h => SameD.then_ _ fun _ => SameD.then_ _ fun _ => ih h

theorem SameD.decodeHash {i : Nat} (hi : lo ≤ i) (ln : Int) (loc : Loc) (r : Bool) :
    SameD (Past lo) (Sereal.decodeHash buf rec i ln loc r) (Sereal.decodeHash buf' rec' i ln loc r) := by
  unfold Sereal.decodeHash
  refine SameD.failIf fun _ => ?_
  rw [H.len]
  refine SameD.failIf fun _ => SameD.then_ _ fun _ => SameD.then_ _ fun _ => SameD.ite (fun _ => ?_) (fun _ => ?_)
  · exact SameD.then_ _ fun _ => SameD.then_ _ fun _ => SameD.hashLoop H hrec _ _ hi
  · exact SameD.then_ _ fun _ => SameD.hashLoop H hrec _ _ hi

theorem SameD.decodeArray {i : Nat} (hi : lo ≤ i) (ln : Int) (loc : Loc) (r : Bool) :
    SameD (Past lo) (Sereal.decodeArray buf rec i ln loc r) (Sereal.decodeArray buf' rec' i ln loc r) := by
  unfold Sereal.decodeArray
  refine SameD.failIf fun _ => ?_
  rw [H.len]
  refine SameD.failIf fun _ => SameD.then_ _ fun _ => SameD.then_ _ fun _ => SameD.ite (fun _ => ?_) (fun _ => ?_)
  · exact SameD.then_ _ fun _ => SameD.then_ _ fun _ => SameD.arrayLoop hrec _ _ hi
  · exact SameD.then_ _ fun _ => SameD.arrayLoop hrec _ _ hi

omit hrec in
theorem SameD.refpAlias {i : Nat} (hi : lo ≤ i) (r : Bool) (loc : Loc) :
    SameD (Past lo) (decodeRefpAlias cfg buf i r loc) (decodeRefpAlias cfg buf' i r loc) := by
  unfold decodeRefpAlias
  refine SameD.bind (SameD.varintAt H hi) fun q _ => SameD.failIf fun _ => SameD.then_ _ fun s => ?_
  have hb : Past lo (i + q.2) := by unfold Past; omega
  split
  · exact SameD.ite (fun _ => SameD.err _) (fun _ => SameD.err _)
  · refine SameD.then_ _ fun _ => SameD.ite (fun _ => SameD.ite (fun _ => SameD.fail _)
      (fun _ => SameD.ite (fun _ => ?_) (fun _ => ?_))) (fun _ => ?_)
    · exact SameD.then_ _ fun _ => SameD.pure hb
    · exact SameD.then_ _ fun _ => SameD.then_ _ fun _ => SameD.pure hb
    · exact SameD.then_ _ fun _ => SameD.pure hb

theorem SameD.iface {i : Nat} (hi : lo ≤ i) (loc : Loc) : SameD (Past lo) (decodeIface buf rec i loc) (decodeIface buf' rec' i loc) := by
  unfold decodeIface
  rw [H.len]
  refine SameD.failIf fun _ => SameD.then_ _ fun _ => SameD.failIf fun _ => SameD.then_ _ fun _ =>
    SameD.bind (hrec _ _ hi) fun j hj => SameD.then_ _ fun _ => SameD.ite (fun _ => ?_) (fun _ => ?_)
  · exact SameD.then_ _ fun _ => SameD.pure hj
  · exact SameD.pure hj

theorem SameD.object {i : Nat} (hi : lo ≤ i) (loc : Loc) (v : Bool) (hz : v = true → ∀ n j, Vint goDialect buf i n j → lo ≤ n) :
    SameD (Past lo) (decodeObject cfg buf rec i loc v) (decodeObject cfg buf' rec' i loc v) := by
  unfold decodeObject
  refine SameD.bind (SameD.className H v hi hz) fun p hp => SameD.ite (fun _ => ?_) (fun _ => SameD.iface H hrec hp _)
  exact SameD.then_ _ fun _ => SameD.then_ _ fun _ => SameD.then_ _ fun _ => hrec _ _ hp

theorem SameD.freeze {i : Nat} (hi : lo ≤ i) (loc : Loc) (v : Bool) (hz : v = true → ∀ n j, Vint goDialect buf i n j → lo ≤ n) :
    SameD (Past lo) (decodeFreeze cfg buf rec i loc v) (decodeFreeze cfg buf' rec' i loc v) := by
  unfold decodeFreeze
  refine SameD.bind (SameD.className H v hi hz) fun p hp => ?_
  have hp' : lo ≤ p.2 := hp
  rw [H.len]
  refine SameD.failIf fun _ => SameD.bind (SameD.byteAt H hp') fun _ _ => SameD.bind (SameD.byteAt H (by omega)) fun _ _ =>
    SameD.failIf fun _ => SameD.then_ _ fun _ => SameD.bind (hrec _ _ hp) fun j hj => SameD.then_ _ fun w => ?_
  have hd : ∀ (o : Val), SameD (Past lo) (do let o ← Sereal.allocVar o; Sereal.writeLoc loc (.ptr false o); Pure.pure j)
      (do let o ← Sereal.allocVar o; Sereal.writeLoc loc (.ptr false o); Pure.pure j) :=
    fun o => SameD.then_ _ fun _ => SameD.then_ _ fun _ => SameD.pure hj
  split
  · refine SameD.failIf fun _ => SameD.then_ _ fun _ => ?_
    split
    · refine SameD.then_ _ fun _ => SameD.ite (fun _ => hd _) (fun _ => ?_)
      refine SameD.then_ _ fun _ => SameD.failIf fun _ => ?_
      split
      · split
        · exact SameD.fail _
        · exact hd _
      · exact hd _
    · exact SameD.err _
  · exact SameD.err _

omit H in
theorem SameD.refn (t : Bool) {i : Nat} (hi : lo ≤ i) (loc : Loc) : SameD (Past lo) (decodeRefn cfg rec t i loc) (decodeRefn cfg rec' t i loc) := by
  unfold decodeRefn
  refine SameD.ite (fun _ => ?_) (fun _ => hrec _ _ hi)
  refine SameD.then_ _ fun _ => SameD.then_ _ fun _ => SameD.bind (hrec _ _ hi) fun j hj =>
    SameD.ite (fun _ => SameD.pure hj) (fun _ => ?_)
  refine SameD.then_ _ fun _ => SameD.ite (fun _ => SameD.fail _) (fun _ => ?_)
  exact SameD.then_ _ fun _ => SameD.then_ _ fun _ => SameD.pure hj

theorem SameD.decodeC (c : TagC) (t : Bool) {i : Nat} (hi : lo ≤ i) (loc : Loc) (tag : Nat)
    (hz : c = .copy ∨ c = .objectv ∨ c = .freezev → ∀ n j, Vint goDialect buf i n j → lo ≤ n) :
    SameD (Past lo) (Sereal.decodeC cfg buf rec c t i loc tag) (Sereal.decodeC cfg buf' rec' c t i loc tag) := by
  have hb : ∀ x : Nat, Past lo (i + x) := fun x => by unfold Past; omega
  have hw : ∀ (v : Val) {j : Nat}, Past lo j → SameD (Past lo) (do Sereal.writeLoc loc v; Pure.pure j) (do Sereal.writeLoc loc v; Pure.pure j) :=
    fun v j hj => SameD.then_ _ fun _ => SameD.pure hj
  have hd : ∀ (o : Val) {j : Nat}, Past lo j → SameD (Past lo) (do let o ← Sereal.allocVar o; Sereal.writeLoc loc (.ptr false o); Pure.pure j)
      (do let o ← Sereal.allocVar o; Sereal.writeLoc loc (.ptr false o); Pure.pure j) :=
    fun o j hj => SameD.then_ _ fun _ => SameD.then_ _ fun _ => SameD.pure hj
  unfold Sereal.decodeC
  cases c <;> dsimp only
  case int n => exact hw _ hi
  case varint => exact SameD.bind (SameD.varintAt H hi) fun q _ => SameD.ite (fun _ => hw _ (hb _)) (fun _ => hw _ (hb _))
  case zigzag => exact SameD.bind (SameD.varintAt H hi) fun q _ => hw _ (hb _)
  case float => exact SameD.bind (SameD.float H hi) fun q hq => hw _ hq
  case double => exact SameD.bind (SameD.double H hi) fun q hq => hw _ hq
  case true_ => exact hw _ hi
  case false_ => exact hw _ hi
  case hash => exact SameD.bind (SameD.varintAt H hi) fun q _ => SameD.decodeHash H hrec (hb _) _ _ _
  case hashref n => exact SameD.decodeHash H hrec hi _ _ _
  case array => exact SameD.bind (SameD.varintAt H hi) fun q _ => SameD.decodeArray H hrec (hb _) _ _ _
  case arrayref n => exact SameD.decodeArray H hrec hi _ _ _
  case strUtf8 =>
    exact SameD.bind (SameD.varintAt H hi) fun q _ => SameD.bind (SameD.binary H (hb _) _) fun r hr => hw _ hr
  case binary =>
    exact SameD.bind (SameD.varintAt H hi) fun q _ => SameD.bind (SameD.binary H (hb _) _) fun r hr => hw _ hr
  case short n => exact SameD.bind (SameD.binary H hi _) fun r hr => hw _ hr
  case undef => exact SameD.ite (fun _ => hd _ hi) (fun _ => hw _ hi)
  case cundef => exact SameD.ite (fun _ => hw _ hi) (fun _ => hw _ hi)
  case copy =>
    refine SameD.then_ _ fun _ => SameD.failIf fun _ => SameD.bind (SameD.varintAt H hi) fun q hq => SameD.failIf fun ho => ?_
    obtain ⟨n, hn, hs, hlt⟩ := hq
    have ho1 : lo ≤ q.1.toNat := by
      rw [hs]; rw [hs] at ho
      exact sgn_pos hlt (hz (Or.inl rfl) n _ hn) fun h => ho (Or.inl h)
    exact SameD.bind (SameD.withCopy (hrec _ _ ho1)) fun _ _ => SameD.pure (hb _)
  case refn => exact SameD.refn hrec cfg _ hi _
  case refp => exact SameD.refpAlias H cfg hi _ _
  case alias => exact SameD.refpAlias H cfg hi _ _
  case weaken =>
    exact SameD.ite (fun _ => SameD.then_ _ fun _ => SameD.then_ _ fun _ => hrec _ _ hi) (fun _ => hrec _ _ hi)
  case regexp => exact SameD.bind (SameD.regexp H hi) fun q hq => hd _ hq
  case object => exact SameD.object H hrec cfg hi _ _ (fun h => by cases h)
  case objectv => exact SameD.object H hrec cfg hi _ _ (fun _ => hz (Or.inr (Or.inl rfl)))
  case freeze => exact SameD.freeze H hrec cfg hi _ _ (fun h => by cases h)
  case freezev => exact SameD.freeze H hrec cfg hi _ _ (fun _ => hz (Or.inr (Or.inr rfl)))
  case pad => exact SameD.err _
  case other => exact SameD.err _

omit H hrec in
theorem classify_offset {n : Nat} (hn : n < 128) (h : classify n = .copy ∨ classify n = .objectv ∨ classify n = .freezev) :
    n = 0x2f ∨ n = 0x2d ∨ n = 0x33 := by
  revert h; revert n; decide

omit hrec in
/-- decode. -/
theorem SameD.decode (f : Nat) {i : Nat} (hi : lo ≤ i) (loc : Loc) :
    SameD (Past lo) (Sereal.decode cfg buf f i loc) (Sereal.decode cfg buf' f i loc) := by
  induction f generalizing i loc with
  | zero => exact SameD.fail _
  | succ f ih =>
    rw [decode_succ, decode_succ]
    refine SameD.then_ _ fun _ => SameD.bind (SameD.skipPad H hi) fun p hp => ?_
    have hc : SameD (Past lo)
        (Sereal.decodeC cfg buf (Sereal.decode cfg buf f) (classify (p.2.toNat % 128)) (128 ≤ p.2.toNat) (p.1 + 1) loc (p.2.toNat % 128))
        (Sereal.decodeC cfg buf' (Sereal.decode cfg buf' f) (classify (p.2.toNat % 128)) (128 ≤ p.2.toNat) (p.1 + 1) loc (p.2.toNat % 128)) :=
      SameD.decodeC H (fun i l h => ih h l) cfg _ _ (by omega) _ _ fun h n j =>
        H.zero p.1 p.2 n j hp.1 hp.2 (classify_offset (by omega) h)
    exact SameD.ite (fun _ => SameD.then_ _ fun _ => hc) (fun _ => hc)

end
end Sereal
