import Verif.Proof.LayLeaf
import Verif.Proof.Depth
/-
copyDepth is restored by decodeViaReflection too.
-/
namespace Sereal

/-- If `x` returns normally or with an error, copyDepth is what it was before. -/
def KeepsM (x : M α) : Prop := ∀ s, Returned (x s).1 → (x s).2.d.copyDepth = s.d.copyDepth

namespace KeepsM

theorem pure (a : α) : KeepsM (Pure.pure a : M α) := fun _ _ => rfl
theorem fail (e : Exn) : KeepsM (M.fail e : M α) := fun _ _ => rfl
theorem err (e : Err) : KeepsM (M.err e : M α) := fun _ _ => rfl

theorem bind {x : M α} {f : α → M β} (hx : KeepsM x) (hf : ∀ a, KeepsM (f a)) : KeepsM (x >>= f) := by
  intro s hs
  have h1 := hx s
  rw [M.bind_apply] at hs ⊢
  rcases hr : x s with ⟨r, s'⟩
  rw [hr] at h1 hs
  cases r with
  | ok a => exact (hf a s' hs).trans (h1 (by intro e h; cases h))
  | error e => exact h1 (by intro e' h; exact hs e' (by cases h; rfl))

theorem failIf {c : Prop} [Decidable c] (e : Exn) : KeepsM (M.failIf c e) := by
  unfold M.failIf
  split
  · exact fail e
  · exact pure _

theorem ite {c : Prop} [Decidable c] {x y : M α} (h1 : KeepsM x) (h2 : KeepsM y) : KeepsM (if c then x else y) := by
  split
  · exact h1
  · exact h2

theorem lift {x : D α} (h : Keeps x) : KeepsM (M.lift x) := fun s hs => h s.d hs

theorem read (t : Target) : KeepsM t.read := by
  intro s _
  unfold Target.read
  split <;> rfl

theorem write (t : Target) (v : MVal) : KeepsM (t.write v) := by
  unfold Target.write
  split
  · exact ite (fail _) fun _ _ => rfl
  · exact fail _

theorem newVar (v : MVal) : KeepsM (Sereal.newVar v) := fun _ _ => rfl
theorem newMap : KeepsM Sereal.newMap := fun _ _ => rfl

theorem makeSlice (t : Target) (vs : List MVal) : KeepsM (t.makeSlice vs) := bind (newVar _) fun _ => write _ _

theorem setInt (t : Target) (i : Int64) : KeepsM (t.setInt i) := by
  unfold Target.setInt; split
  · exact write _ _
  · exact write _ _
  · exact fail _

theorem setFloat (tc : TCfg) (t : Target) (u : UInt64) : KeepsM (t.setFloat tc u) := by
  unfold Target.setFloat; split
  · exact write _ _
  · exact write _ _
  · exact fail _

theorem setBool (t : Target) (b : Bool) : KeepsM (t.setBool b) := by
  unfold Target.setBool; split
  · exact write _ _
  · exact fail _

theorem setString (t : Target) (s : Bytes) : KeepsM (t.setString s) := by
  unfold Target.setString; split
  · exact write _ _
  · exact fail _

theorem setBinary (t : Target) (s : Bytes) : KeepsM (t.setBinary s) := by
  unfold Target.setBinary; split
  · refine bind (read _) fun v => ?_
    split
    · exact bind (failIf _) fun _ _ _ => rfl
    · exact makeSlice _ _
  · exact fail _
  · exact bind (read _) fun v => write _ _
  · exact fail _
  · exact write _ _
  · exact fail _

theorem setPerl (t : Target) (v : Val) : KeepsM (t.setPerl v) := by
  unfold Target.setPerl; split
  · exact write _ _
  · exact fail _

theorem alloc (v : Val) : KeepsM (M.lift (allocVar v)) := lift (Keeps.allocVar v)

theorem undef (cfg : DCfg) (c : Bool) (t : Target) : KeepsM (undefMem cfg c t) := by
  unfold undefMem
  split
  · exact setPerl _ _
  · split
    · exact bind (alloc _) fun _ => setPerl _ _
    · split
      · exact write _ _
      · exact write _ _
      · exact write _ _
      · exact pure _

theorem assign (t : Target) (ty : Ty) (v : MVal) : KeepsM (t.assign ty v) := by
  unfold Target.assign
  split
  · exact write _ _
  · split
    · exact write _ _
    · exact fail _

theorem assignAny (t : Target) (v : Val) : KeepsM (t.assignAny v) := by
  unfold Target.assignAny
  split
  · exact fail _
  · split
    · exact write _ _
    · split
      · exact assign _ _ _
      · split
        · exact fail _
        · exact fail _

theorem fromAny (cfg : DCfg) (r : Bool) (t : Target) (v : MVal) (ro : Bool) : KeepsM (t.fromAny cfg r v ro) := by
  unfold Target.fromAny
  refine bind (failIf _) fun _ => bind (failIf _) fun _ => ?_
  split
  · split
    · exact bind (read _) fun _ => assign _ _ _
    · refine bind (lift (Keeps.readLoc _)) fun w => ?_
      split
      · exact write _ _
      · exact fail _
    · exact bind (lift (Keeps.readLoc _)) fun w => assignAny _ _
    · exact fail _
  · split
    · exact assign _ _ _
    · exact assignAny _ _
    · exact fail _

theorem call (f : Bytes → Option Nat) (data : Bytes) (l : Spot) : KeepsM (callUnmarshal f data l) := by
  unfold callUnmarshal
  split
  · exact err _
  · exact fun _ _ => rfl

theorem deref (t : Target) (e : Ty) : KeepsM (t.deref e) := by
  unfold Target.deref
  refine bind (read _) fun v => ?_
  split
  · exact pure _
  · exact bind (newVar _) fun _ => bind (write _ _) fun _ => pure _

theorem unmarshal (tc : TCfg) (t : Target) (data : Bytes) : KeepsM (unmarshalMem tc t data) := by
  have no : ∀ m, KeepsM (M.failIf t.unaddressable (.panic m) >>= fun _ => Pure.pure false : M Bool) :=
    fun m => bind (failIf _) fun _ => pure _
  have yes : ∀ f l, KeepsM (callUnmarshal f data l >>= fun _ => Pure.pure true : M Bool) :=
    fun f l => bind (call _ _ _) fun _ => pure _
  unfold unmarshalMem
  split
  · refine bind (deref _ _) fun t' => bind (failIf _) fun _ => ?_
    split
    · split
      · exact yes _ _
      · exact no _
    · exact no _
  · refine bind (failIf _) fun _ => ?_
    split
    · exact yes _ _
    · exact pure _
  · refine bind (failIf _) fun _ => bind (read _) fun v => ?_
    split
    · split
      · exact yes _ _
      · exact fail _
      · exact no _
    · exact fail _
    · exact fail _
    · exact no _
  · exact no _

theorem lookup (t : Target) (key : Bytes) : KeepsM (t.lookup key) := by
  unfold Target.lookup
  refine bind (read _) fun v => ?_
  cases v with
  | map m => exact fun _ _ => rfl
  | _ => exact pure _

theorem insert (t : Target) (key : Bytes) (v : MVal) : KeepsM (t.insert key v) := by
  unfold Target.insert
  refine bind (failIf _) fun _ => bind (read _) fun v => ?_
  cases v with
  | map m => exact fun _ _ => rfl
  | _ => exact fail _

section
variable {cfg : DCfg} {tc : TCfg} {buf : Bytes} {rec : MRec} (hrec : ∀ i t, KeepsM (rec i t))
include hrec

omit hrec in
theorem fresh (i : Nat) : KeepsM (M.lift (decodeFresh cfg buf i)) := by
  refine lift ?_
  unfold decodeFresh
  exact Keeps.bind' (Keeps.allocVar _) fun _ => Keeps.bind' (decode_keeps _ _ _ _ _) fun _ =>
    Keeps.bind' (Keeps.readLoc _) fun _ => Keeps.pure _

theorem elems (t : Target) (len n k i : Nat) : KeepsM (elemsMem cfg buf rec t len n k i) := by
  induction n generalizing k i with
  | zero => exact pure _
  | succ n ih =>
    unfold elemsMem
    refine ite ?_ (bind (fresh _) fun _ => ih _ _)
    split
    · refine bind (read _) fun v => ?_
      split
      · exact bind (failIf _) fun _ => bind (hrec _ _) fun _ => ih _ _
      · exact fail _
    · exact bind (hrec _ _) fun _ => ih _ _
    · exact fail _

theorem array (t : Target) (i : Nat) (ln : Int) : KeepsM (arrayMem cfg buf rec i ln t) := by
  unfold arrayMem
  refine bind (failIf _) fun _ => bind (failIf _) fun _ => ?_
  split
  · refine bind (read _) fun v => ?_
    have rest : KeepsM (t.read >>= fun v => elemsMem cfg buf rec t v.len ln.toNat 0 i) :=
      bind (read _) fun _ => elems hrec _ _ _ _ _
    exact ite (bind (makeSlice _ _) fun _ => rest) rest
  · exact elems hrec _ _ _ _ _
  · exact err _

theorem entries (e : Ty) (t : Target) (n i : Nat) : KeepsM (entriesMem buf rec e t n i) := by
  induction n generalizing i with
  | zero => exact pure _
  | succ n ih =>
    unfold entriesMem
    refine bind (lift (Keeps.stringish _ _)) fun r => bind (lookup _ _) fun o => ?_
    split
    · exact bind (hrec _ _) fun _ => ih _
    · exact bind (newVar _) fun l => bind (hrec _ _) fun _ => bind (read _) fun v => bind (insert _ _ _) fun _ => ih _

theorem fields (fs : List TField) (t : Target) (n i : Nat) : KeepsM (fieldsMem cfg tc buf rec fs t n i) := by
  induction n generalizing i with
  | zero => exact pure _
  | succ n ih =>
    unfold fieldsMem
    refine bind (lift (Keeps.stringish _ _)) fun r => ?_
    dsimp only
    split
    · split
      · exact bind (hrec _ _) fun _ => ih _
      · exact fail _
    · exact bind (fresh _) fun _ => ih _

theorem hash (i n : Nat) (ty : Ty) : ∀ (t : Target), KeepsM (hashMem cfg tc buf rec i n ty t) := by
  induction ty with
  | map e =>
    intro t
    unfold hashMem
    refine bind (read _) fun v => ite ?_ (entries hrec _ _ _ _)
    exact bind newMap fun m => bind (write _ _) fun _ => entries hrec _ _ _ _
  | ptr e ih => intro t; unfold hashMem; exact bind (deref _ _) fun t' => ih t'
  | strct id => intro t; unfold hashMem; exact fields hrec _ _ _ _
  | _ => intro t; unfold hashMem; exact err _

omit hrec in
theorem get {f : MSt → M α} (h : ∀ s, KeepsM (f s)) : KeepsM (M.get >>= f) := fun s hs => h s s hs

omit hrec in
theorem refp (t : Target) (i : Nat) (b : Bool) : KeepsM (refpMem cfg buf i b t) := by
  unfold refpMem
  refine bind (lift (Keeps.varintAt _ _)) fun r => bind (failIf _) fun _ => get fun s => ?_
  split
  · exact ite (err _) (err _)
  · split
    · refine ite (bind (read _) fun v => ?_) (bind (lift (Keeps.readLoc _)) fun v => bind (fromAny _ _ _ _ _) fun _ => pure _)
      split
      · exact ite (bind (fromAny _ _ _ _ _) fun _ => pure _) (bind (failIf _) fun _ => bind (assign _ _ _) fun _ => pure _)
      · exact bind (failIf _) fun _ => bind (assign _ _ _) fun _ => pure _
    · exact bind (lift (Keeps.readLoc _)) fun v => bind (fromAny _ _ _ _ _) fun _ => pure _

omit hrec in
theorem freeze (t : Target) (i : Nat) (b : Bool) : KeepsM (freezeMem cfg tc buf i t b) := by
  unfold freezeMem
  refine bind (lift (Keeps.className _ _ _)) fun r => bind (failIf _) fun _ => bind (lift (Keeps.byteAt _ _)) fun _ =>
    bind (lift (Keeps.byteAt _ _)) fun _ => bind (failIf _) fun _ => bind (fresh _) fun q => ?_
  dsimp only
  split
  · refine bind (failIf _) fun _ => bind (lift (Keeps.readLoc _)) fun w => ?_
    split
    · refine ite (bind (alloc _) fun _ => bind (setPerl _ _) fun _ => pure _) ?_
      refine bind (unmarshal _ _ _) fun u => ite (pure _) (bind (read _) fun _ => ?_)
      exact ite (bind (makeSlice _ _) fun _ => pure _) (err _)
    · exact err _
  · exact err _

theorem checkedHash (t : Target) (i : Nat) (ln : Int) : KeepsM (checkedHashMem cfg tc buf rec i ln t) := by
  unfold checkedHashMem checkHash
  exact bind (lift (Keeps.failIf fun _ => by unfold D.failIf; exact Keeps.ite (fun _ _ _ => rfl) fun _ _ _ => rfl)) fun _ =>
    hash hrec _ _ _ _

omit hrec in
theorem withCopy {x : M α} (h : KeepsM x) : KeepsM (withCopyMem x) := by
  intro s hs
  have h1 := h { s with d := { s.d with copyDepth := s.d.copyDepth + 1 } }
  unfold withCopyMem at hs ⊢
  split at hs
  · rename_i a s' he
    rw [he] at h1
    have h2 : s'.d.copyDepth = s.d.copyDepth + 1 := h1 (by intro e h; cases h)
    show s'.d.copyDepth - 1 = _
    omega
  · rename_i a s' he
    rw [he] at h1
    have h2 : s'.d.copyDepth = s.d.copyDepth + 1 := h1 (by intro e h; exact ⟨_, (Except.error.inj h).symm⟩)
    show s'.d.copyDepth - 1 = _
    omega
  · rename_i e s' hne he
    obtain ⟨er, her⟩ := hs e rfl
    exact absurd her (hne er)

theorem body (t : Target) (c : TagC) (i tag : Nat) : KeepsM (memC cfg tc buf rec c i t tag) := by
  have inner : ∀ (v : Val) (k : Nat), KeepsM (do
        let a ← M.lift (allocVar v)
        t.setPerl (.ptr false a)
        M.lift (decode cfg buf (fuelFor buf.length) k (.field a))) :=
    fun v k => bind (alloc _) fun _ => bind (setPerl _ _) fun _ => lift (decode_keeps _ _ _ _ _)
  have fin : ∀ {x : M Unit} (k : Nat), KeepsM x → KeepsM (x >>= fun _ => Pure.pure k) := fun k h => bind h fun _ => pure _
  cases c with
  | int n => exact fin _ (setInt _ _)
  | varint => exact bind (lift (Keeps.varintAt _ _)) fun _ => fin _ (setInt _ _)
  | zigzag => exact bind (lift (Keeps.varintAt _ _)) fun _ => fin _ (setInt _ _)
  | float => exact bind (lift (Keeps.float _ _)) fun _ => fin _ (setFloat _ _ _)
  | double => exact bind (lift (Keeps.double _ _)) fun _ => fin _ (setFloat _ _ _)
  | true_ => exact fin _ (setBool _ _)
  | false_ => exact fin _ (setBool _ _)
  | binary => exact bind (lift (Keeps.varintAt _ _)) fun _ => bind (lift (Keeps.binary _ _)) fun _ => fin _ (setBinary _ _)
  | short n => exact bind (lift (Keeps.binary _ _)) fun _ => fin _ (setBinary _ _)
  | strUtf8 => exact bind (lift (Keeps.varintAt _ _)) fun _ => bind (lift (Keeps.binary _ _)) fun _ => fin _ (setString _ _)
  | hash => exact bind (lift (Keeps.varintAt _ _)) fun _ => checkedHash hrec _ _ _
  | hashref n => exact checkedHash hrec _ _ _
  | array => exact bind (lift (Keeps.varintAt _ _)) fun _ => array hrec _ _ _
  | arrayref n => exact array hrec _ _ _
  | undef => exact fin _ (undef _ _ _)
  | cundef => exact fin _ (undef _ _ _)
  | copy =>
    exact get fun s => bind (failIf _) fun _ => bind (lift (Keeps.varintAt _ _)) fun _ => bind (failIf _) fun _ =>
      bind (withCopy (hrec _ _)) fun _ => pure _
  | refn => exact hrec _ _
  | refp => exact refp _ _ _
  | alias => exact refp _ _ _
  | weaken => exact ite (inner _ _) (hrec _ _)
  | regexp =>
    refine bind (lift ?_) fun _ => bind (alloc _) fun _ => fin _ (setPerl _ _)
    unfold decodeRegexp
    exact Keeps.bind' (Keeps.stringish _ _) fun _ => Keeps.bind' (Keeps.stringish _ _) fun _ => Keeps.pure _
  | object => exact bind (lift (Keeps.className _ _ _)) fun _ => ite (inner _ _) (hrec _ _)
  | objectv => exact bind (lift (Keeps.className _ _ _)) fun _ => ite (inner _ _) (hrec _ _)
  | freeze => exact freeze _ _ _
  | freezev => exact freeze _ _ _
  | pad => exact err _
  | other => exact err _

end

theorem track (t : Target) (i : Nat) : KeepsM (trackMem i t) := by
  unfold trackMem
  exact bind (alloc _) fun a => bind (lift (Keeps.track _ _)) fun _ _ _ => rfl

/-- decodeViaReflection. -/
theorem decode (cfg : DCfg) (tc : TCfg) (buf : Bytes) (f : Nat) : ∀ i t, KeepsM (decodeMem cfg tc buf f i t) := by
  induction f with
  | zero => intro i t; exact fail _
  | succ f ih =>
    intro i t
    unfold decodeMem
    refine bind (failIf _) fun _ => bind (read _) fun v => ite ?_ ?_
    · refine bind (fresh _) fun r => ?_
      dsimp only
      exact ite (bind (write _ _) fun _ => pure _) (pure _)
    · refine bind (lift (Keeps.lift _)) fun r => ?_
      dsimp only
      have rest : KeepsM (tagMem cfg tc buf (decodeMem cfg tc buf f) (r.2 &&& ~~~ trackFlag) (r.1 + 1) t) := by
        rw [tagMem_eq _ _ _ _ _ _ _ (untracked_lt r.2)]
        exact body ih _ _ _ _
      exact ite (bind (track _ _) fun _ => rest) rest

end KeepsM
end Sereal
