import Verif.Proof.HeadByte
import Verif.Proof.DepthMem
/-
The typed decoder does not depend on the beginning of its buffer either, unless an offset leads there.
-/
namespace Sereal

/-- The same computation; its result satisfies `Q`. -/
def SameM (Q : α → Prop) (x y : M α) : Prop := x = y ∧ ∀ s a s', x s = (.ok a, s') → Q a

namespace SameM
variable {Q : α → Prop} {R : β → Prop}

theorem refl (x : M α) : SameM (fun _ => True) x x := ⟨rfl, fun _ _ _ _ => trivial⟩

theorem bind {x y : M α} {f g : α → M β} (h : SameM Q x y) (hf : ∀ a, Q a → SameM R (f a) (g a)) :
    SameM R (x >>= f) (y >>= g) := by
  obtain ⟨rfl, h⟩ := h
  have hr : ∀ s, (x >>= f) s = (x >>= g) s ∧ ∀ b s', (x >>= f) s = (.ok b, s') → R b := by
    intro s
    rw [M.bind_apply, M.bind_apply]
    rcases hr : x s with ⟨r, s'⟩
    cases r with
    | ok a =>
      dsimp only
      have := hf a (h _ _ _ hr)
      exact ⟨by rw [this.1], fun b s'' => this.2 _ _ _⟩
    | error e => exact ⟨rfl, fun b s'' he => by cases he⟩
  exact ⟨funext fun s => (hr s).1, fun s b s' => (hr s).2 b s'⟩

theorem pure {a : α} (h : Q a) : SameM Q (Pure.pure a : M α) (Pure.pure a) :=
  ⟨rfl, fun _ _ _ he => by cases he; exact h⟩
theorem err (e : Err) : SameM Q (M.err e : M α) (M.err e) := ⟨rfl, fun _ _ _ he => by cases he⟩
theorem fail (e : Exn) : SameM Q (M.fail e : M α) (M.fail e) := ⟨rfl, fun _ _ _ he => by cases he⟩

theorem then_ (x : M α) {f g : α → M β} (hf : ∀ a, SameM R (f a) (g a)) : SameM R (x >>= f) (x >>= g) :=
  bind (refl x) fun a _ => hf a

theorem lift {x y : D α} (h : SameD Q x y) : SameM Q (M.lift x) (M.lift y) := by
  obtain ⟨rfl, h⟩ := h
  refine ⟨rfl, fun s a s' he => ?_⟩
  unfold M.lift at he
  rcases hr : x s.d with ⟨r, d⟩
  rw [hr] at he
  cases he
  exact h _ _ _ hr

theorem ite {c : Prop} [Decidable c] {x1 x2 y1 y2 : M α} (h1 : c → SameM Q x1 y1) (h2 : ¬ c → SameM Q x2 y2) :
    SameM Q (if c then x1 else x2) (if c then y1 else y2) := by
  by_cases hc : c
  · rw [if_pos hc, if_pos hc]; exact h1 hc
  · rw [if_neg hc, if_neg hc]; exact h2 hc

theorem failIf {c : Prop} [Decidable c] {e : Exn} {f g : Unit → M β} (h : ¬ c → SameM R (f ()) (g ())) :
    SameM R (M.failIf c e >>= f) (M.failIf c e >>= g) := by
  by_cases hc : c
  · unfold M.failIf; rw [if_pos hc]; exact fail e
  · unfold M.failIf; rw [if_neg hc]; exact h hc

/-- The same steps, then a result. -/
theorem fin {lo : Nat} (x : M Unit) {j : Nat} (h : Past lo j) : SameM (Past lo) (x >>= fun _ => Pure.pure j) (x >>= fun _ => Pure.pure j) :=
  then_ _ fun _ => pure h

end SameM

theorem SameD.fresh {lo : Nat} {cfg : DCfg} {buf buf' : Bytes} (H : Beside lo buf buf') {i : Nat} (hi : lo ≤ i) :
    SameD (fun p => Past lo p.1) (decodeFresh cfg buf i) (decodeFresh cfg buf' i) := by
  unfold decodeFresh
  rw [H.len]
  exact SameD.then_ _ fun _ => SameD.bind (SameD.decode H cfg _ hi _) fun j hj => SameD.then_ _ fun _ => SameD.pure hj

namespace SameM
variable {lo : Nat} {cfg : DCfg} {tc : TCfg} {buf buf' : Bytes} {rec rec' : MRec} (H : Beside lo buf buf')
  (hrec : ∀ i t, lo ≤ i → SameM (Past lo) (rec i t) (rec' i t))
include H

section
include hrec

theorem elems (t : Target) (len n k : Nat) {i : Nat} (hi : lo ≤ i) :
    SameM (Past lo) (elemsMem cfg buf rec t len n k i) (elemsMem cfg buf' rec' t len n k i) := by
  induction n generalizing k i with
  | zero => exact pure hi
  | succ n ih =>
    unfold elemsMem
    refine ite (fun _ => ?_) (fun _ => bind (lift (SameD.fresh H hi)) fun p hp => ih _ hp)
    split
    · refine then_ _ fun v => ?_
      split
      · exact failIf fun _ => bind (hrec _ _ hi) fun _ h => ih _ h
      · exact fail _
    · exact bind (hrec _ _ hi) fun _ h => ih _ h
    · exact fail _

theorem array (t : Target) {i : Nat} (hi : lo ≤ i) (ln : Int) :
    SameM (Past lo) (arrayMem cfg buf rec i ln t) (arrayMem cfg buf' rec' i ln t) := by
  unfold arrayMem
  rw [H.len]
  refine failIf fun _ => failIf fun _ => ?_
  split
  · refine then_ _ fun v => ?_
    have rest : SameM (Past lo) (t.read >>= fun v => elemsMem cfg buf rec t v.len ln.toNat 0 i)
        (t.read >>= fun v => elemsMem cfg buf' rec' t v.len ln.toNat 0 i) :=
      then_ _ fun _ => elems H hrec _ _ _ _ hi
    exact ite (fun _ => then_ _ fun _ => rest) (fun _ => rest)
  · exact elems H hrec _ _ _ _ hi
  · exact err _

theorem entries (e : Ty) (t : Target) (n : Nat) {i : Nat} (hi : lo ≤ i) :
    SameM (Past lo) (entriesMem buf rec e t n i) (entriesMem buf' rec' e t n i) := by
  induction n generalizing i with
  | zero => exact pure hi
  | succ n ih =>
    unfold entriesMem
    refine bind (lift (SameD.stringish H hi)) fun r hr => then_ _ fun o => ?_
    split
    · exact bind (hrec _ _ hr) fun _ h => ih h
    · exact then_ _ fun l => bind (hrec _ _ hr) fun _ h => then_ _ fun v => then_ _ fun _ => ih h

theorem fields (fs : List TField) (t : Target) (n : Nat) {i : Nat} (hi : lo ≤ i) :
    SameM (Past lo) (fieldsMem cfg tc buf rec fs t n i) (fieldsMem cfg tc buf' rec' fs t n i) := by
  induction n generalizing i with
  | zero => exact pure hi
  | succ n ih =>
    unfold fieldsMem
    refine bind (lift (SameD.stringish H hi)) fun r hr => ?_
    dsimp only
    split
    · split
      · exact bind (hrec _ _ hr) fun _ h => ih h
      · exact fail _
    · exact bind (lift (SameD.fresh H hr)) fun _ h => ih h

theorem hash {i : Nat} (hi : lo ≤ i) (n : Nat) (ty : Ty) :
    ∀ (t : Target), SameM (Past lo) (hashMem cfg tc buf rec i n ty t) (hashMem cfg tc buf' rec' i n ty t) := by
  induction ty with
  | map e =>
    intro t
    unfold hashMem
    refine then_ _ fun v => ite (fun _ => ?_) (fun _ => entries H hrec _ _ _ hi)
    exact then_ _ fun m => then_ _ fun _ => entries H hrec _ _ _ hi
  | ptr e ih => intro t; unfold hashMem; exact then_ _ fun t' => ih t'
  | strct id => intro t; unfold hashMem; exact fields H hrec _ _ _ hi
  | _ => intro t; unfold hashMem; exact err _

theorem checkedHash (t : Target) {i : Nat} (hi : lo ≤ i) (ln : Int) :
    SameM (Past lo) (checkedHashMem cfg tc buf rec i ln t) (checkedHashMem cfg tc buf' rec' i ln t) := by
  unfold checkedHashMem checkHash
  rw [H.len]
  exact then_ _ fun _ => hash H hrec hi _ _ _

end

theorem refp (t : Target) {i : Nat} (hi : lo ≤ i) (b : Bool) :
    SameM (Past lo) (refpMem cfg buf i b t) (refpMem cfg buf' i b t) := by
  unfold refpMem
  refine bind (lift (SameD.varintAt H hi)) fun r _ => failIf fun _ => then_ _ fun s => ?_
  have hb : Past lo (i + r.2) := by unfold Past; omega
  split
  · exact ite (fun _ => err _) (fun _ => err _)
  · split
    · refine ite (fun _ => then_ _ fun v => ?_) (fun _ => then_ _ fun v => fin _ hb)
      split
      · exact ite (fun _ => fin _ hb) (fun _ => then_ _ fun _ => fin _ hb)
      · exact then_ _ fun _ => fin _ hb
    · exact then_ _ fun v => fin _ hb

theorem freeze (t : Target) {i : Nat} (hi : lo ≤ i) (b : Bool) (hz : b = true → ∀ n j, Vint goDialect buf i n j → lo ≤ n) :
    SameM (Past lo) (freezeMem cfg tc buf i t b) (freezeMem cfg tc buf' i t b) := by
  unfold freezeMem
  rw [H.len]
  refine bind (lift (SameD.className H b hi hz)) fun r hr => failIf fun _ => ?_
  have hr' : lo ≤ r.2 := hr
  refine bind (lift (SameD.byteAt H hr')) fun _ _ => bind (lift (SameD.byteAt H (by omega))) fun _ _ => failIf fun _ =>
    bind (lift (SameD.fresh H hr')) fun q hq => ?_
  dsimp only
  split
  · refine failIf fun _ => then_ _ fun w => ?_
    split
    · refine ite (fun _ => then_ _ fun _ => fin _ hq) (fun _ => ?_)
      refine then_ _ fun u => ite (fun _ => pure hq) (fun _ => then_ _ fun _ => ?_)
      exact ite (fun _ => fin _ hq) (fun _ => err _)
    · exact err _
  · exact err _

omit H in
theorem withCopy {x y : M α} {Q : α → Prop} (h : SameM Q x y) : SameM (fun _ => True) (withCopyMem x) (withCopyMem y) := by
  rw [h.1]; exact refl _

include hrec in
theorem body (t : Target) (c : TagC) {i : Nat} (hi : lo ≤ i) (tag : Nat)
    (hz : c = .copy ∨ c = .objectv ∨ c = .freezev → ∀ n j, Vint goDialect buf i n j → lo ≤ n) :
    SameM (Past lo) (memC cfg tc buf rec c i t tag) (memC cfg tc buf' rec' c i t tag) := by
  have hb : ∀ x : Nat, Past lo (i + x) := fun x => by unfold Past; omega
  have inner : ∀ (v : Val) {k : Nat}, lo ≤ k → SameM (Past lo) (do
        let a ← M.lift (allocVar v)
        t.setPerl (.ptr false a)
        M.lift (Sereal.decode cfg buf (fuelFor buf.length) k (.field a))) (do
        let a ← M.lift (allocVar v)
        t.setPerl (.ptr false a)
        M.lift (Sereal.decode cfg buf' (fuelFor buf'.length) k (.field a))) :=
    fun v k hk => then_ _ fun _ => then_ _ fun _ => lift (by rw [H.len]; exact SameD.decode H cfg _ hk _)
  cases c with
  | int n => exact fin _ hi
  | varint => exact bind (lift (SameD.varintAt H hi)) fun _ _ => fin _ (hb _)
  | zigzag => exact bind (lift (SameD.varintAt H hi)) fun _ _ => fin _ (hb _)
  | float => exact bind (lift (SameD.float H hi)) fun _ h => fin _ h
  | double => exact bind (lift (SameD.double H hi)) fun _ h => fin _ h
  | true_ => exact fin _ hi
  | false_ => exact fin _ hi
  | binary =>
    exact bind (lift (SameD.varintAt H hi)) fun _ _ => bind (lift (SameD.binary H (hb _) _)) fun _ h => fin _ h
  | short n => exact bind (lift (SameD.binary H hi _)) fun _ h => fin _ h
  | strUtf8 =>
    exact bind (lift (SameD.varintAt H hi)) fun _ _ => bind (lift (SameD.binary H (hb _) _)) fun _ h => fin _ h
  | hash => exact bind (lift (SameD.varintAt H hi)) fun _ _ => checkedHash H hrec _ (hb _) _
  | hashref n => exact checkedHash H hrec _ hi _
  | array => exact bind (lift (SameD.varintAt H hi)) fun _ _ => array H hrec _ (hb _) _
  | arrayref n => exact array H hrec _ hi _
  | undef => exact fin _ hi
  | cundef => exact fin _ hi
  | copy =>
    refine then_ _ fun s => failIf fun _ => bind (lift (SameD.varintAt H hi)) fun q hq => failIf fun ho => ?_
    obtain ⟨n, hn, hs, hlt⟩ := hq
    have ho1 : lo ≤ q.1.toNat := by
      rw [hs]; rw [hs] at ho
      exact sgn_pos hlt (hz (Or.inl rfl) n _ hn) fun h => ho (Or.inl h)
    exact bind (withCopy (hrec _ _ ho1)) fun _ _ => pure (hb _)
  | refn => exact hrec _ _ hi
  | refp => exact refp H _ hi _
  | alias => exact refp H _ hi _
  | weaken => exact ite (fun _ => inner _ hi) (fun _ => hrec _ _ hi)
  | regexp => exact bind (lift (SameD.regexp H hi)) fun _ h => then_ _ fun _ => fin _ h
  | object =>
    exact bind (lift (SameD.className H _ hi (fun h => by cases h))) fun _ h => ite (fun _ => inner _ h) (fun _ => hrec _ _ h)
  | objectv =>
    exact bind (lift (SameD.className H _ hi (fun _ => hz (Or.inr (Or.inl rfl))))) fun _ h =>
      ite (fun _ => inner _ h) (fun _ => hrec _ _ h)
  | freeze => exact freeze H _ hi _ (fun h => by cases h)
  | freezev => exact freeze H _ hi _ (fun _ => hz (Or.inr (Or.inr rfl)))
  | pad => exact err _
  | other => exact err _

/-- decodeViaReflection. -/
theorem decode (cfg : DCfg) (tc : TCfg) (f : Nat) {i : Nat} (hi : lo ≤ i) (t : Target) :
    SameM (Past lo) (decodeMem cfg tc buf f i t) (decodeMem cfg tc buf' f i t) := by
  induction f generalizing i t with
  | zero => exact fail _
  | succ f ih =>
    unfold decodeMem
    rw [H.len]
    refine failIf fun _ => then_ _ fun v => ite (fun _ => ?_) (fun _ => ?_)
    · refine bind (lift (SameD.fresh H hi)) fun r hr => ?_
      dsimp only
      exact ite (fun _ => fin _ hr) (fun _ => pure hr)
    · refine bind (lift (SameD.skipPad H hi)) fun r hr => ?_
      dsimp only
      have rest : SameM (Past lo) (tagMem cfg tc buf (decodeMem cfg tc buf f) (r.2 &&& ~~~ trackFlag) (r.1 + 1) t)
          (tagMem cfg tc buf' (decodeMem cfg tc buf' f) (r.2 &&& ~~~ trackFlag) (r.1 + 1) t) := by
        rw [tagMem_eq _ _ _ _ _ _ _ (untracked_lt r.2), tagMem_eq _ _ _ _ _ _ _ (untracked_lt r.2)]
        rw [unflag_nat]
        exact body H (fun i t h => ih h t) _ _ (by omega) _ fun h n j =>
          H.zero r.1 r.2 n j hr.1 hr.2 (classify_offset (by omega) h)
      exact ite (fun _ => then_ _ fun _ => rest) (fun _ => rest)

end SameM
end Sereal
