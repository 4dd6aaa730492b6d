import Verif.Proof.Fence
import Verif.Proof.MemPaths
/-
Decoding into a struct does not change its unexported fields.
-/
namespace Sereal

theorem MVal.set_part' {v x : MVal} {n i j : Nat} :
    ((MVal.multi ((v.parts n).set i x)).parts n).getD j .zero = if j = i ∧ i < n then x else (v.parts n).getD j .zero := by
  by_cases hi : i < n
  · rw [MVal.set_part hi]
    by_cases h : j = i
    · rw [if_pos h, if_pos ⟨h, hi⟩]
    · rw [if_neg h, if_neg (fun h' => h h'.1)]
  · rw [if_neg (fun h' => hi h'.2), List.set_eq_of_length_le (by rw [MVal.parts_length]; omega)]
    by_cases hj : j < n
    · rw [MVal.part_multi hj]
    · rw [List.getD_eq_getElem?_getD, List.getD_eq_getElem?_getD,
        List.getElem?_eq_none (by rw [MVal.parts_length]; omega), List.getElem?_eq_none (by rw [MVal.parts_length]; omega)]

/-- What `x` returns, when it does, is as stated. -/
def Yields (x : D α) (Q : α → Prop) : Prop := ∀ s a, (x s).1 = .ok a → Q a

namespace Yields

theorem fail {Q : α → Prop} (e : Exn) : Yields (D.fail e : D α) Q := fun _ _ h => by cases h
theorem pure {a : α} {Q : α → Prop} (h : Q a) : Yields (Pure.pure a : D α) Q := fun _ _ e => by cases e; exact h
theorem bind {x : D α} {f : α → D β} {P : α → Prop} {Q : β → Prop} (hx : Yields x P) (hf : ∀ a, P a → Yields (f a) Q) :
    Yields (x >>= f) Q := by
  intro s b e
  change ((match x s with | (.ok a, s') => f a s' | (.error e, s') => (.error e, s')) : Except Exn β × DState).1 = _ at e
  rcases hr : x s with ⟨q, s'⟩
  rw [hr] at e
  cases q with
  | error e' => cases e
  | ok a => exact hf a (hx s a (by rw [hr])) s' b e
theorem any (x : D α) : Yields x fun _ => True := fun _ _ _ => trivial
theorem bind' {x : D α} {f : α → D β} {Q : β → Prop} (hf : ∀ a, Yields (f a) Q) : Yields (x >>= f) Q :=
  bind (any x) fun a _ => hf a
theorem ite {c : Prop} [Decidable c] {x y : D α} {Q : α → Prop} (h1 : Yields x Q) (h2 : Yields y Q) :
    Yields (if c then x else y) Q := by
  split
  · exact h1
  · exact h2

theorem sliceRange (buf : Bytes) (lo hi : Nat) : Yields (Sereal.sliceRange buf lo hi) fun r => r <:+: buf := by
  unfold Sereal.sliceRange
  exact ite (pure ((List.take_prefix _ _).isInfix.trans (List.drop_suffix _ _).isInfix)) (fail _)

theorem withCopy {x : D α} {Q : α → Prop} (hx : Yields x Q) : Yields (Sereal.withCopy x) Q := by
  intro s a e
  unfold Sereal.withCopy at e
  rcases hr : x { s with copyDepth := s.copyDepth + 1 } with ⟨q, s'⟩
  rw [hr] at e
  cases q with
  | ok b => cases e; exact hx _ _ (by rw [hr])
  | error e' => cases e' <;> cases e

end Yields

/-- The strings that are read are parts of the buffer. -/
theorem decodeStringish_infix (buf : Bytes) (i : Nat) : Yields (decodeStringish buf i) fun r => r.1 <:+: buf := by
  unfold decodeStringish
  generalize 2 = f
  induction f generalizing i with
  | zero => exact .fail _
  | succ f ih =>
    unfold decodeStringishF
    refine .bind' fun _ => .bind' fun p => ?_
    dsimp only
    refine .ite ?_ (.ite ?_ (.ite ?_ (.fail _)))
    · exact .bind' fun p => .bind' fun _ => .bind' fun _ => .bind (.sliceRange _ _ _) fun _ h => .pure h
    · exact .bind' fun _ => .bind (.sliceRange _ _ _) fun _ h => .pure h
    · exact .bind' fun _ => .bind' fun _ => .bind' fun p => .bind' fun _ => .bind (.withCopy (ih _)) fun _ h => .pure h

/-- Writing at `p`, or at a part of it, does not change what is at `q`. -/
def Off (q p : List (Nat × Nat)) : Prop := ∀ r v w, (MVal.put v (p ++ r) w).get q = v.get q

theorem Off.sub {q p : List (Nat × Nat)} (h : Off q p) (x : Nat × Nat) : Off q (p ++ [x]) := by
  intro r v w
  rw [List.append_assoc]
  exact h _ v w

theorem Off.other {p : List (Nat × Nat)} {i j n : Nat} (h : i ≠ j) : Off (p ++ [(i, n)]) (p ++ [(j, n)]) := by
  intro r
  induction p with
  | nil =>
    intro v w
    simp only [List.nil_append, List.cons_append]
    rw [MVal.put, MVal.get, MVal.get_nil, MVal.set_part', if_neg (fun h' => h h'.1), MVal.get, MVal.get_nil]
  | cons x p ih =>
    intro v w
    obtain ⟨a, b⟩ := x
    simp only [List.cons_append]
    rw [MVal.put, MVal.get, MVal.get, MVal.set_part']
    split
    · exact ih _ _
    · rfl

/-- Writing what is there already changes nothing. -/
theorem MVal.put_same (v : MVal) (p q : List (Nat × Nat)) : (v.put p (v.get p)).get (p ++ q) = v.get (p ++ q) := by
  induction p generalizing v with
  | nil => rw [MVal.put_nil, MVal.get_nil]
  | cons x p ih =>
    obtain ⟨a, b⟩ := x
    rw [List.cons_append, MVal.put, MVal.get, MVal.get, MVal.get, MVal.set_part']
    split
    · exact ih _
    · rfl

/-- Variable `b` has a part, at `q`, that is to keep the contents `x`; `R` are the other variables in use. -/
structure Lock where
  R : Nat → Prop
  b : Nat
  q : List (Nat × Nat)
  x : MVal

/-- Reading from the target is reading from a variable in use. -/
def Target.Seen (k : Lock) (t : Target) : Prop :=
  match t.place with
  | .var l => k.R l.base ∨ l.base = k.b
  | .tmp v => v.Inside k.R

/-- Nothing in use points at the locked variable, and the locked part is as it was. -/
structure Locked (k : Lock) (s : MSt) : Prop where
  vars : ∀ b, k.R b ∨ b = k.b → (s.mem.vars b).Inside k.R
  maps : ∀ b, k.R b → ∀ key v, (key, v) ∈ s.mem.maps b → v.Inside k.R
  typed : ∀ o a t, s.typed o = some (a, t) → t.Seen k
  above : ∀ b, s.mem.next ≤ b → k.R b
  out : ¬ k.R k.b
  kept : (s.mem.vars k.b).get k.q = k.x

/-- Writing there does not touch the locked part. -/
def Spot.Free (k : Lock) (l : Spot) : Prop := k.R l.base ∨ (l.base = k.b ∧ Off k.q l.path)

/-- Writing to the target fails or does not touch the locked part. -/
def Target.Free (k : Lock) (t : Target) : Prop :=
  match t.place with
  | .var l => l.Free k ∨ (l.base = k.b ∧ t.ro = true)
  | .tmp v => v.Inside k.R

theorem Target.Free.seen {k : Lock} {t : Target} (h : t.Free k) : t.Seen k := by
  unfold Target.Free at h
  unfold Target.Seen
  split at h
  · rcases h with (h | h) | h
    · exact Or.inl h
    · exact Or.inr h.1
    · exact Or.inr h.1
  · exact h

/-- From states with `I` to states with `J`. -/
def Carries (I J : MSt → Prop) (x : M α) (Q : α → Prop) : Prop :=
  ∀ s, I s → J (x s).2 ∧ ∀ a, (x s).1 = .ok a → Q a

/-- The locked part stays as it is. -/
abbrev Keeping (k : Lock) (x : M α) (Q : α → Prop) : Prop := Carries (Locked k) (Locked k) x Q

namespace Carries
variable {I J : MSt → Prop}

theorem pure {a : α} {Q : α → Prop} (hIJ : ∀ s, I s → J s) (h : Q a) : Carries I J (Pure.pure a : M α) Q :=
  fun s hs => ⟨hIJ s hs, fun b hb => by cases hb; exact h⟩
theorem fail {Q : α → Prop} (hIJ : ∀ s, I s → J s) (e : Exn) : Carries I J (M.fail e : M α) Q :=
  fun s hs => ⟨hIJ s hs, fun b hb => by cases hb⟩

theorem bind {x : M α} {f : α → M β} {P : α → Prop} {Q : β → Prop} (hIJ : ∀ s, I s → J s) (hx : Carries I I x P)
    (hf : ∀ a, P a → Carries I J (f a) Q) : Carries I J (x >>= f) Q := by
  intro s hs
  obtain ⟨h1, h2⟩ := hx s hs
  rw [M.bind_apply]
  rcases hr : x s with ⟨r, s'⟩
  rw [hr] at h1 h2
  cases r with
  | ok a => exact hf a (h2 a rfl) s' h1
  | error e => exact ⟨hIJ _ h1, fun b hb => by cases hb⟩

/-- `x` is the last step that matters. -/
theorem fin {x : M α} {P : α → Prop} {Q : β → Prop} {f : α → β} (hx : Carries I J x P) (h : ∀ a, P a → Q (f a)) :
    Carries I J (x >>= fun a => Pure.pure (f a)) Q := by
  intro s hs
  obtain ⟨h1, h2⟩ := hx s hs
  rw [M.bind_apply]
  rcases hr : x s with ⟨r, s'⟩
  rw [hr] at h1 h2
  cases r with
  | ok a => exact ⟨h1, fun b hb => by cases hb; exact h a (h2 a rfl)⟩
  | error e => exact ⟨h1, fun b hb => by cases hb⟩

theorem failIf {c : Prop} [Decidable c] (e : Exn) : Carries I I (M.failIf c e) fun _ => ¬ c := by
  unfold M.failIf
  split
  · exact fail (fun _ h => h) e
  · next h => exact pure (fun _ h => h) h

theorem ite {c : Prop} [Decidable c] {x y : M α} {Q : α → Prop} (h1 : Carries I J x Q) (h2 : Carries I J y Q) :
    Carries I J (if c then x else y) Q := by
  split
  · exact h1
  · exact h2

theorem ite' {c : Prop} [Decidable c] {x y : M α} {Q : α → Prop} (h1 : c → Carries I J x Q) (h2 : ¬ c → Carries I J y Q) :
    Carries I J (if c then x else y) Q := by
  split
  · next h => exact h1 h
  · next h => exact h2 h

end Carries

section
variable {k : Lock}

theorem Locked.lift {s : MSt} (h : Locked k s) (d : DState) : Locked k { s with d := d } :=
  ⟨h.vars, h.maps, h.typed, h.above, h.out, h.kept⟩

theorem Locked.get {s : MSt} (h : Locked k s) {l : Spot} (hl : k.R l.base ∨ l.base = k.b) : (s.mem.get l).Inside k.R :=
  Inside.get (h.vars _ hl)

theorem Locked.put {s : MSt} (h : Locked k s) {l : Spot} {v : MVal} (hl : l.Free k) (hv : v.Inside k.R) :
    Locked k { s with mem := s.mem.put l v } := by
  refine ⟨?_, h.maps, h.typed, h.above, h.out, ?_⟩
  · intro b hb
    dsimp only [Mem.put]
    split
    · exact Inside.put hv (h.vars b hb)
    · exact h.vars b hb
  · dsimp only [Mem.put]
    split
    · next he =>
      rcases hl with hl | hl
      · exact absurd (he ▸ hl) h.out
      · have := hl.2 [] (s.mem.vars k.b) v
        rw [List.append_nil] at this
        rw [this]
        exact h.kept
    · exact h.kept

theorem Locked.next_ne {s : MSt} (h : Locked k s) : k.b ≠ s.mem.next := by
  intro he
  exact h.out (h.above _ (by rw [he]; exact Nat.le_refl _))

theorem Locked.new {s : MSt} (h : Locked k s) {v : MVal} (hv : v.Inside k.R) : Locked k { s with mem := s.mem.new v } := by
  refine ⟨?_, h.maps, h.typed, fun b hb => h.above b (by dsimp only [Mem.new] at hb; omega), h.out, ?_⟩
  · intro b hb
    dsimp only [Mem.new]
    split
    · exact hv
    · exact h.vars b hb
  · dsimp only [Mem.new]
    rw [if_neg h.next_ne]
    exact h.kept

theorem Locked.newMap {s : MSt} (h : Locked k s) : Locked k { s with mem := s.mem.newMap } := by
  refine ⟨h.vars, ?_, h.typed, fun b hb => h.above b (by dsimp only [Mem.newMap] at hb; omega), h.out, h.kept⟩
  intro b hb key v hk
  dsimp only [Mem.newMap] at hk
  split at hk
  · cases hk
  · exact h.maps b hb key v hk

theorem Locked.insert {s : MSt} (h : Locked k s) {m : Nat} {key : Bytes} {v : MVal} (hv : v.Inside k.R) :
    Locked k { s with mem := s.mem.insert m key v } := by
  refine ⟨h.vars, ?_, h.typed, h.above, h.out, h.kept⟩
  intro b hb key' v' hk
  dsimp only [Mem.insert] at hk
  split at hk
  · rcases mem_mapInsert hk with h1 | h1
    · dsimp only at h1; rw [h1]; exact hv
    · exact h.maps b hb key' v' h1
  · exact h.maps b hb key' v' hk

end

namespace Keeping
variable {k : Lock}

theorem pure {a : α} {Q : α → Prop} (h : Q a) : Keeping k (Pure.pure a : M α) Q := Carries.pure (fun _ h => h) h
theorem fail {Q : α → Prop} (e : Exn) : Keeping k (M.fail e : M α) Q := Carries.fail (fun _ h => h) e
theorem err {Q : α → Prop} (e : Err) : Keeping k (M.err e : M α) Q := fail _
theorem bind {x : M α} {f : α → M β} {P : α → Prop} {Q : β → Prop} (hx : Keeping k x P)
    (hf : ∀ a, P a → Keeping k (f a) Q) : Keeping k (x >>= f) Q := Carries.bind (fun _ h => h) hx hf
/-- For results that hold no references. -/
theorem bind' {x : M α} {f : α → M β} {P : α → Prop} {Q : β → Prop} (hx : Keeping k x P)
    (hf : ∀ a, Keeping k (f a) Q) : Keeping k (x >>= f) Q := bind hx fun a _ => hf a
theorem failIf {c : Prop} [Decidable c] (e : Exn) : Keeping k (M.failIf c e) fun _ => ¬ c := Carries.failIf e
theorem ite {c : Prop} [Decidable c] {x y : M α} {Q : α → Prop} (h1 : Keeping k x Q) (h2 : Keeping k y Q) :
    Keeping k (if c then x else y) Q := Carries.ite h1 h2

theorem lift (x : D α) : Keeping k (M.lift x) fun _ => True := fun s hs => ⟨hs.lift _, fun _ _ => trivial⟩

theorem lifted {x : D α} {Q : α → Prop} (h : Yields x Q) : Keeping k (M.lift x) Q :=
  fun s hs => ⟨hs.lift _, fun a ha => h s.d a ha⟩

theorem read {t : Target} (ht : t.Seen k) : Keeping k t.read fun v => v.Inside k.R := by
  intro s hs
  unfold Target.Seen at ht
  unfold Target.read
  cases hp : t.place with
  | var l => rw [hp] at ht; exact ⟨hs, fun a ha => by cases ha; exact hs.get ht⟩
  | tmp v => rw [hp] at ht; exact ⟨hs, fun a ha => by cases ha; exact ht⟩

theorem write {t : Target} {v : MVal} (ht : t.Free k) (hv : v.Inside k.R) : Keeping k (t.write v) fun _ => True := by
  unfold Target.write
  unfold Target.Free at ht
  split
  · next l hp =>
    rw [hp] at ht
    rcases ht with ht | ht
    · exact ite (fail _) fun s hs => ⟨hs.put ht hv, fun _ _ => trivial⟩
    · exact Carries.ite' (fun _ => fail _) fun h => absurd ht.2 h
  · exact fail _

theorem newVar {v : MVal} (hv : v.Inside k.R) : Keeping k (Sereal.newVar v) fun l => k.R l.base :=
  fun s hs => ⟨hs.new hv, fun a ha => by cases ha; exact hs.above _ (Nat.le_refl _)⟩

theorem newMap : Keeping k Sereal.newMap k.R :=
  fun s hs => ⟨hs.newMap, fun a ha => by cases ha; exact hs.above _ (Nat.le_refl _)⟩

open Fenced (plain bytes slice ptr map any ofAny ofPtr ofSlice ofMap)

theorem makeSlice {t : Target} {vs : List MVal} (ht : t.Free k) (hv : ∀ v ∈ vs, v.Inside k.R) :
    Keeping k (t.makeSlice vs) fun _ => True :=
  bind (newVar (Inside.multi hv)) fun _ hl => write ht (slice hl)

theorem setInt {t : Target} (ht : t.Free k) (i : Int64) : Keeping k (t.setInt i) fun _ => True := by
  unfold Target.setInt; split
  · exact write ht (plain fun _ h => by cases h)
  · exact write ht (plain fun _ h => by cases h)
  · exact fail _

theorem setFloat {t : Target} (ht : t.Free k) (tc : TCfg) (u : UInt64) : Keeping k (t.setFloat tc u) fun _ => True := by
  unfold Target.setFloat; split
  · exact write ht (plain fun _ h => by cases h)
  · exact write ht (plain fun _ h => by cases h)
  · exact fail _

theorem setBool {t : Target} (ht : t.Free k) (b : Bool) : Keeping k (t.setBool b) fun _ => True := by
  unfold Target.setBool; split
  · exact write ht (plain fun _ h => by cases h)
  · exact fail _

theorem setString {t : Target} (ht : t.Free k) (s : Bytes) : Keeping k (t.setString s) fun _ => True := by
  unfold Target.setString; split
  · exact write ht (plain fun _ h => by cases h)
  · exact fail _

theorem overlay {vs : List MVal} (h : ∀ v ∈ vs, v.Inside k.R) (a b : Nat) (s : Bytes) :
    (MVal.multi (overlayMem vs a b s)).Inside k.R := by
  refine Inside.multi fun v hv => ?_
  unfold overlayMem at hv
  rcases List.mem_append.1 hv with hv | hv
  · rcases List.mem_append.1 hv with hv | hv
    · exact h v (List.mem_of_mem_take hv)
    · exact bytes _ v hv
  · exact h v (List.mem_of_mem_drop hv)

theorem setBinary {t : Target} (ht : t.Free k) (s : Bytes) : Keeping k (t.setBinary s) fun _ => True := by
  unfold Target.setBinary; split
  · refine bind (read ht.seen) fun v hv => ?_
    split
    · refine bind' (failIf _) fun _ => ?_
      have hl := ofSlice hv
      exact fun st hs => ⟨hs.put (Or.inl hl) (overlay (Inside.parts (hs.get (Or.inl hl)) _) _ _ _), fun _ _ => trivial⟩
    · exact makeSlice ht (bytes _)
  · exact fail _
  · exact bind (read ht.seen) fun v hv => write ht (overlay (Inside.parts hv _) _ _ _)
  · exact fail _
  · exact write ht (plain fun _ h => by cases h)
  · exact fail _

theorem setPerl {t : Target} (ht : t.Free k) (v : Val) : Keeping k (t.setPerl v) fun _ => True := by
  unfold Target.setPerl; split
  · exact write ht (plain fun _ h => by cases h)
  · exact fail _

theorem undef (cfg : DCfg) (c : Bool) {t : Target} (ht : t.Free k) : Keeping k (undefMem cfg c t) fun _ => True := by
  unfold undefMem
  split
  · exact setPerl ht _
  · split
    · exact bind' (lift _) fun _ => setPerl ht _
    · split
      · exact write ht Inside.zero
      · exact write ht Inside.zero
      · exact write ht Inside.zero
      · exact pure trivial

theorem assign {t : Target} (ht : t.Free k) (ty : Ty) {v : MVal} (hv : v.Inside k.R) :
    Keeping k (t.assign ty v) fun _ => True := by
  unfold Target.assign
  split
  · exact write ht hv
  · split
    · exact write ht (any hv)
    · exact fail _

theorem typedVal {v : Val} {ty : Ty} {w : MVal} (h : v.typed = some (ty, w)) : w.Inside k.R := by
  unfold Val.typed at h
  intro n hn
  split at h <;> cases h <;> cases hn

theorem assignAny {t : Target} (ht : t.Free k) (v : Val) : Keeping k (t.assignAny v) fun _ => True := by
  unfold Target.assignAny
  split
  · exact fail _
  · split
    · exact write ht (plain fun _ h => by cases h)
    · split
      · next h => exact assign ht _ (typedVal h)
      · split
        · exact fail _
        · exact fail _

theorem fromAny (cfg : DCfg) (r : Bool) {t : Target} (ht : t.Free k) {v : MVal} (hv : v.Inside k.R) (ro : Bool) :
    Keeping k (t.fromAny cfg r v ro) fun _ => True := by
  unfold Target.fromAny
  refine bind' (failIf _) fun _ => bind' (failIf _) fun _ => ?_
  split
  · split
    · exact bind (read (t := ⟨_, .var _, false⟩) (Or.inl (ofPtr (ofAny hv)))) fun _ hw => assign ht _ hw
    · refine bind' (lift _) fun w => ?_
      split
      · refine write ht ?_
        split
        · exact Inside.zero
        · exact plain fun _ h => by cases h
      · exact fail _
    · exact bind' (lift _) fun w => assignAny ht _
    · exact fail _
  · split
    · exact assign ht _ (ofAny hv)
    · exact assignAny ht _
    · exact fail _

theorem call (f : Bytes → Option Nat) (data : Bytes) {l : Spot} (hl : l.Free k) :
    Keeping k (callUnmarshal f data l) fun _ => True := by
  unfold callUnmarshal
  split
  · exact err _
  · exact fun s hs => ⟨hs.put hl (plain fun _ h => by cases h), fun _ _ => trivial⟩

theorem at_ {t : Target} {ty : Ty} {l : Spot} (h : k.R l.base) : (t.at ty l).Free k := Or.inl (Or.inl h)

theorem deref {t : Target} (ht : t.Free k) (e : Ty) :
    Keeping k (t.deref e) fun t' => t'.Free k ∧ ∀ l, t'.place = .var l → k.R l.base := by
  unfold Target.deref
  refine bind (read ht.seen) fun v hv => ?_
  split
  · exact pure ⟨at_ (ofPtr hv), fun l hl => by cases hl; exact ofPtr hv⟩
  · exact bind (newVar Inside.zero) fun l hl => bind' (write ht (ptr hl)) fun _ =>
      pure ⟨at_ hl, fun l' hl' => by cases hl'; exact hl⟩

theorem unmarshal (tc : TCfg) {t : Target} (ht : t.Free k) (data : Bytes) :
    Keeping k (unmarshalMem tc t data) fun _ => True := by
  have no : ∀ m, Keeping k (M.failIf t.unaddressable (.panic m) >>= fun _ => Pure.pure false : M Bool) fun _ => True :=
    fun m => bind' (failIf _) fun _ => pure trivial
  have yes : ∀ f (l : Spot), l.Free k → Keeping k (callUnmarshal f data l >>= fun _ => Pure.pure true : M Bool) fun _ => True :=
    fun f l hl => bind' (call _ _ hl) fun _ => pure trivial
  unfold unmarshalMem
  split
  · refine bind (deref ht _) fun t' ht' => bind' (failIf _) fun _ => ?_
    split
    · next hp =>
      split
      · exact yes _ _ (Or.inl (ht'.2 _ (by assumption)))
      · exact no _
    · exact no _
  · refine bind (failIf _) fun _ hro => ?_
    split
    · next hp _ =>
      unfold Target.Free at ht
      rw [hp] at ht
      rcases ht with ht | ht
      · exact yes _ _ ht
      · exact absurd (Or.inl ht.2) hro
    · exact pure trivial
  · refine bind' (failIf _) fun _ => bind (read ht.seen) fun v hv => ?_
    split
    · split
      · exact yes _ _ (Or.inl (ofPtr (ofAny hv)))
      · exact fail _
      · exact no _
    · exact fail _
    · exact fail _
    · exact no _
  · exact no _

theorem lookup {t : Target} (ht : t.Free k) (key : Bytes) :
    Keeping k (t.lookup key) fun r => ∀ v, r = some v → v.Inside k.R := by
  unfold Target.lookup
  refine bind (read ht.seen) fun v hv => ?_
  cases v with
  | map m =>
    intro s hs
    refine ⟨hs, fun r hr w hw => ?_⟩
    have hr : mapLookup key (s.mem.maps m) = r := by injection hr
    rw [hw] at hr
    exact hs.maps m (ofMap hv) key w (mapLookup_mem hr)
  | _ => exact pure fun _ h => by cases h

theorem insert {t : Target} (ht : t.Free k) (key : Bytes) {v : MVal} (hv : v.Inside k.R) :
    Keeping k (t.insert key v) fun _ => True := by
  unfold Target.insert
  refine bind' (failIf _) fun _ => bind (read ht.seen) fun w hw => ?_
  cases w with
  | map m => exact fun s hs => ⟨hs.insert hv, fun _ _ => trivial⟩
  | _ => exact fail _

end Keeping

/-- Recursive calls stay inside. -/
def FreeRec (k : Lock) (rec : MRec) : Prop :=
  ∀ i t, t.Free k → Keeping k (rec i t) fun _ => True

namespace Keeping
open Fenced (plain bytes slice ptr map any ofAny ofPtr ofSlice ofMap)
section
variable {k : Lock} {cfg : DCfg} {tc : TCfg} {buf : Bytes} {rec : MRec}

theorem partOf {t : Target} (ht : t.Free k) (i n : Nat) (ty : Ty) (x : Bool) : (t.part i n ty x).Free k := by
  unfold Target.Free at *
  unfold Target.part
  cases hp : t.place with
  | var l =>
    rw [hp] at ht
    rcases ht with (ht | ht) | ht
    · exact Or.inl (Or.inl ht)
    · exact Or.inl (Or.inr ⟨ht.1, ht.2.sub _⟩)
    · refine Or.inr ⟨ht.1, ?_⟩
      dsimp only
      rw [ht.2]; rfl
  | tmp v => rw [hp] at ht; exact Inside.part ht i n

theorem elems (hrec : FreeRec k rec) {t : Target} (ht : t.Free k) (len n c i : Nat) :
    Keeping k (elemsMem cfg buf rec t len n c i) fun _ => True := by
  induction n generalizing c i with
  | zero => exact pure trivial
  | succ n ih =>
    unfold elemsMem
    refine ite ?_ (bind' (lift _) fun _ => ih _ _)
    split
    · refine bind (read ht.seen) fun v hv => ?_
      split
      · refine bind' (failIf _) fun _ => bind' (hrec _ _ ?_) fun _ => ih _ _
        have := ofSlice hv
        exact Or.inl (Or.inl this)
      · exact fail _
    · exact bind' (hrec _ _ (partOf ht _ _ _ _)) fun _ => ih _ _
    · exact fail _

theorem array (hrec : FreeRec k rec) {t : Target} (ht : t.Free k) (i : Nat) (ln : Int) :
    Keeping k (arrayMem cfg buf rec i ln t) fun _ => True := by
  unfold arrayMem
  refine bind' (failIf _) fun _ => bind' (failIf _) fun _ => ?_
  split
  · refine bind (read ht.seen) fun v hv => ?_
    have rest : Keeping k (t.read >>= fun v => elemsMem cfg buf rec t v.len ln.toNat 0 i) fun _ => True :=
      bind (read ht.seen) fun _ _ => elems hrec ht _ _ _ _
    refine ite ?_ rest
    refine bind' (makeSlice ht ?_) fun _ => rest
    intro v hv
    rw [(List.mem_replicate.1 hv).2]
    exact Inside.zero
  · exact elems hrec ht _ _ _ _
  · exact err _

theorem entries (hrec : FreeRec k rec) (e : Ty) {t : Target} (ht : t.Free k) (n i : Nat) :
    Keeping k (entriesMem buf rec e t n i) fun _ => True := by
  induction n generalizing i with
  | zero => exact pure trivial
  | succ n ih =>
    unfold entriesMem
    refine bind' (lift _) fun r => bind (lookup ht _) fun o ho => ?_
    split
    · exact bind' (hrec _ _ (ho _ rfl)) fun _ => ih _
    · refine bind (newVar Inside.zero) fun l hl => bind' (hrec _ _ (Or.inl (Or.inl hl))) fun _ =>
        bind (read (t := ⟨e, .var l, false⟩) (Or.inl hl)) fun v hv =>
        bind' (insert ht _ hv) fun _ => ih _

theorem fields (hrec : FreeRec k rec) (fs : List TField) {t : Target} (ht : t.Free k) (n i : Nat) :
    Keeping k (fieldsMem cfg tc buf rec fs t n i) fun _ => True := by
  induction n generalizing i with
  | zero => exact pure trivial
  | succ n ih =>
    unfold fieldsMem
    refine bind' (lift _) fun r => ?_
    dsimp only
    split
    · split
      · exact bind' (hrec _ _ (partOf ht _ _ _ _)) fun _ => ih _
      · exact fail _
    · exact bind' (lift _) fun _ => ih _

theorem hash (hrec : FreeRec k rec) (i n : Nat) (ty : Ty) : ∀ {t : Target}, t.Free k →
    Keeping k (hashMem cfg tc buf rec i n ty t) fun _ => True := by
  induction ty with
  | map e =>
    intro t ht
    unfold hashMem
    refine bind (read ht.seen) fun v hv => ?_
    refine ite ?_ (entries hrec _ ht _ _)
    exact bind newMap fun m hm => bind' (write ht (map hm)) fun _ => entries hrec _ ht _ _
  | ptr e ih =>
    intro t ht
    unfold hashMem
    exact bind (deref ht _) fun t' ht' => ih ht'.1
  | strct id => intro t ht; unfold hashMem; exact fields hrec _ ht _ _
  | _ => intro t ht; unfold hashMem; exact err _

theorem get {f : MSt → M α} {Q : α → Prop} (h : ∀ s, Locked k s → Keeping k (f s) Q) : Keeping k (M.get >>= f) Q :=
  fun s hs => h s hs s hs

theorem refp {t : Target} (ht : t.Free k) (i : Nat) (b : Bool) : Keeping k (refpMem cfg buf i b t) fun _ => True := by
  have any : ∀ v : Val, (if v = .nil then MVal.zero else .iface v).Inside k.R := by
    intro v
    split
    · exact Inside.zero
    · exact plain fun _ h => by cases h
  unfold refpMem
  refine bind' (lift _) fun r => bind' (failIf _) fun _ => get fun s hs => ?_
  split
  · exact ite (err _) (err _)
  · split
    · next a rv hrv =>
      have hr := hs.typed _ _ _ hrv
      refine ite (bind (read hr) fun v hv => ?_) (bind' (lift _) fun v => bind' (fromAny _ _ ht (any _) _) fun _ => pure trivial)
      split
      · refine ite (bind' (fromAny _ _ ht (hs.get (Or.inl (ofPtr hv))) _) fun _ => pure trivial) ?_
        exact bind' (failIf _) fun _ => bind' (assign ht _ hv) fun _ => pure trivial
      · exact bind' (failIf _) fun _ => bind' (assign ht _ hv) fun _ => pure trivial
    · exact bind' (lift _) fun v => bind' (fromAny _ _ ht (any _) _) fun _ => pure trivial

theorem freeze {t : Target} (ht : t.Free k) (i : Nat) (b : Bool) : Keeping k (freezeMem cfg tc buf i t b) fun _ => True := by
  unfold freezeMem
  refine bind' (lift _) fun r => bind' (failIf _) fun _ => bind' (lift _) fun _ => bind' (lift _) fun _ => bind' (failIf _) fun _ =>
    bind' (lift _) fun q => ?_
  dsimp only
  split
  · refine bind' (failIf _) fun _ => bind' (lift _) fun w => ?_
    split
    · refine ite (bind' (lift _) fun _ => bind' (setPerl ht _) fun _ => pure trivial) ?_
      refine bind' (unmarshal _ ht _) fun u => ite (pure trivial) (bind (read ht.seen) fun _ _ => ?_)
      exact ite (bind' (makeSlice ht (bytes _)) fun _ => pure trivial) (err _)
    · exact err _
  · exact err _

theorem checkedHash (hrec : FreeRec k rec) {t : Target} (ht : t.Free k) (i : Nat) (ln : Int) :
    Keeping k (checkedHashMem cfg tc buf rec i ln t) fun _ => True := by
  unfold checkedHashMem
  exact bind' (lift _) fun _ => hash hrec _ _ _ ht

theorem withCopy {x : M α} {Q : α → Prop} (hx : Keeping k x Q) : Keeping k (withCopyMem x) Q := by
  intro s hs
  obtain ⟨h1, h2⟩ := hx { s with d := { s.d with copyDepth := s.d.copyDepth + 1 } }
    (hs.lift _)
  unfold withCopyMem
  rcases hr : x { s with d := { s.d with copyDepth := s.d.copyDepth + 1 } } with ⟨r, s'⟩
  rw [hr] at h1 h2
  have h3 : ∀ d : DState, Locked k { s' with d := d } := fun d => h1.lift d
  cases r with
  | ok a => exact ⟨h3 _, fun b hb => h2 b hb⟩
  | error e =>
    cases e with
    | err e => exact ⟨h3 _, fun b hb => by cases hb⟩
    | _ => exact ⟨h1, fun b hb => by cases hb⟩

theorem body (hrec : FreeRec k rec) {t : Target} (ht : t.Free k) (c : TagC) (i tag : Nat) :
    Keeping k (memC cfg tc buf rec c i t tag) fun _ => True := by
  have inner : ∀ (v : Val) (j : Nat), Keeping k (do
        let a ← M.lift (allocVar v)
        t.setPerl (.ptr false a)
        M.lift (decode cfg buf (fuelFor buf.length) j (.field a))) fun _ => True :=
    fun v j => bind' (lift _) fun _ => bind' (setPerl ht _) fun _ => lift _
  have fin : ∀ {x : M Unit} (j : Nat), Keeping k x (fun _ => True) → Keeping k (x >>= fun _ => Pure.pure j) fun _ => True :=
    fun j h => bind' h fun _ => pure trivial
  cases c with
  | int n => exact fin _ (setInt ht _)
  | varint => exact bind' (lift _) fun _ => fin _ (setInt ht _)
  | zigzag => exact bind' (lift _) fun _ => fin _ (setInt ht _)
  | float => exact bind' (lift _) fun _ => fin _ (setFloat ht _ _)
  | double => exact bind' (lift _) fun _ => fin _ (setFloat ht _ _)
  | true_ => exact fin _ (setBool ht _)
  | false_ => exact fin _ (setBool ht _)
  | binary => exact bind' (lift _) fun _ => bind' (lift _) fun _ => fin _ (setBinary ht _)
  | short n => exact bind' (lift _) fun _ => fin _ (setBinary ht _)
  | strUtf8 => exact bind' (lift _) fun _ => bind' (lift _) fun _ => fin _ (setString ht _)
  | hash => exact bind' (lift _) fun _ => checkedHash hrec ht _ _
  | hashref n => exact checkedHash hrec ht _ _
  | array => exact bind' (lift _) fun _ => array hrec ht _ _
  | arrayref n => exact array hrec ht _ _
  | undef => exact fin _ (undef _ _ ht)
  | cundef => exact fin _ (undef _ _ ht)
  | copy =>
    exact get fun s _ => bind' (failIf _) fun _ => bind' (lift _) fun _ => bind' (failIf _) fun _ =>
      bind' (withCopy (hrec _ _ ht)) fun _ => pure trivial
  | refn => exact hrec _ _ ht
  | refp => exact refp ht _ _
  | alias => exact refp ht _ _
  | weaken => exact ite (inner _ _) (hrec _ _ ht)
  | regexp => exact bind' (lift _) fun _ => bind' (lift _) fun _ => fin _ (setPerl ht _)
  | object => exact bind' (lift _) fun _ => ite (inner _ _) (hrec _ _ ht)
  | objectv => exact bind' (lift _) fun _ => ite (inner _ _) (hrec _ _ ht)
  | freeze => exact freeze ht _ _
  | freezev => exact freeze ht _ _
  | pad => exact err _
  | other => exact err _

theorem track {t : Target} (ht : t.Free k) (i : Nat) : Keeping k (trackMem i t) fun _ => True := by
  unfold trackMem
  refine bind' (lift _) fun a => bind' (lift _) fun _ => fun s hs => ⟨⟨hs.vars, hs.maps, ?_, hs.above, hs.out, hs.kept⟩, fun _ _ => trivial⟩
  intro o b t' ho
  dsimp only at ho
  split at ho
  · cases ho; exact ht.seen
  · exact hs.typed o b t' ho

end

/-- decodeViaReflection stays inside. -/
theorem decode {k : Lock} (cfg : DCfg) (tc : TCfg) (buf : Bytes) (f : Nat) :
    FreeRec k (decodeMem cfg tc buf f) := by
  induction f with
  | zero => intro i t ht; exact fail _
  | succ f ih =>
    intro i t ht
    unfold decodeMem
    refine bind' (failIf _) fun _ => bind (read ht.seen) fun v hv => ite ?_ ?_
    · refine bind' (lift _) fun r => ?_
      dsimp only
      exact ite (bind' (write ht (plain fun _ h => by cases h)) fun _ => pure trivial) (pure trivial)
    · refine bind' (lift _) fun r => ?_
      dsimp only
      have rest : Keeping k (tagMem cfg tc buf (decodeMem cfg tc buf f) (r.2 &&& ~~~ trackFlag) (r.1 + 1) t) fun _ => True := by
        rw [tagMem_eq _ _ _ _ _ _ _ (untracked_lt r.2)]
        exact body ih ht _ _ _
      exact ite (bind' (track ht _) fun _ => rest) rest

end Keeping

/-! ### The struct itself -/

/-- The struct that Unmarshal was called with. -/
structure Root where
  id : Nat
  l : Spot

def Root.target (r : Root) : Target := { ty := .strct r.id, place := .var r.l }

/-- `d.tracked` has no typed entries but the struct itself. -/
def Early (k : Lock) (r : Root) (s : MSt) : Prop :=
  Locked k s ∧ ∀ o a t, s.typed o = some (a, t) → t = r.target

/-- The lock is on field `i` of the struct, which is not exported; the struct has no UnmarshalBinary. -/
structure Hides (tc : TCfg) (buf : Bytes) (k : Lock) (r : Root) (i : Nat) : Prop where
  base : r.l.base = k.b
  path : k.q = r.l.path ++ [(i, (tc.types r.id).fields.length)]
  field : (∀ f, (tc.types r.id).fields[i]? = some f → f.exported = false) ∨
    ∀ key, key <:+: buf → findField tc (tc.types r.id).fields key ≠ some i
  plain : (tc.types r.id).unmarshal = none

/-- Decoding starts. -/
abbrev Begins (k : Lock) (r : Root) (x : M α) : Prop := Carries (Early k r) (Locked k) x fun _ => True

namespace Begins
variable {k : Lock} {r : Root} {i : Nat} {cfg : DCfg} {tc : TCfg} {buf : Bytes} {rec : MRec}

theorem early {s : MSt} (h : Early k r s) : Locked k s := h.1

theorem fail (e : Exn) : Begins k r (M.fail e : M α) := Carries.fail (fun _ => early) e
theorem err (e : Err) : Begins k r (M.err e : M α) := fail _
theorem pure (a : α) : Begins k r (Pure.pure a : M α) := Carries.pure (fun _ => early) trivial
theorem bind {x : M α} {f : α → M β} {P : α → Prop} (hx : Carries (Early k r) (Early k r) x P)
    (hf : ∀ a, P a → Begins k r (f a)) : Begins k r (x >>= f) := Carries.bind (fun _ => early) hx hf
theorem bind' {x : M α} {f : α → M β} {P : α → Prop} (hx : Carries (Early k r) (Early k r) x P)
    (hf : ∀ a, Begins k r (f a)) : Begins k r (x >>= f) := bind hx fun a _ => hf a
theorem later {x : M α} {Q : α → Prop} (hx : Keeping k x Q) : Begins k r x :=
  fun s hs => ⟨(hx s hs.1).1, fun _ _ => trivial⟩
theorem fin {x : M α} {f : α → β} (hx : Begins k r x) : Begins k r (x >>= fun a => Pure.pure (f a)) :=
  Carries.fin hx fun _ _ => trivial

theorem lift (x : D α) : Carries (Early k r) (Early k r) (M.lift x) fun _ => True :=
  fun s hs => ⟨⟨hs.1.lift _, hs.2⟩, fun _ _ => trivial⟩

theorem failIf {c : Prop} [Decidable c] (e : Exn) : Carries (Early k r) (Early k r) (M.failIf c e) fun _ => True :=
  fun s hs => ⟨((Carries.failIf (I := Early k r) (c := c) e) s hs).1, fun _ _ => trivial⟩

theorem get {f : MSt → M α} (h : ∀ s, Begins k r (f s)) : Begins k r (M.get >>= f) := fun s hs => h s s hs

theorem read (t : Target) : Carries (Early k r) (Early k r) t.read fun _ => True := by
  intro s hs
  unfold Target.read
  split
  · exact ⟨hs, fun _ _ => trivial⟩
  · exact ⟨hs, fun _ _ => trivial⟩

theorem track (h : Hides tc buf k r i) (j : Nat) : Carries (Early k r) (Early k r) (trackMem j r.target) fun _ => True := by
  unfold trackMem
  refine Carries.bind (fun _ h => h) (lift _) fun a _ => Carries.bind (fun _ h => h) (lift _) fun _ _ => fun s hs => ?_
  have hseen : r.target.Seen k := Or.inr h.base
  refine ⟨⟨⟨hs.1.vars, hs.1.maps, ?_, hs.1.above, hs.1.out, hs.1.kept⟩, ?_⟩, fun _ _ => trivial⟩
  · intro o b t ho
    dsimp only at ho
    split at ho
    · cases ho; exact hseen
    · exact hs.1.typed o b t ho
  · intro o b t ho
    dsimp only at ho
    split at ho
    · cases ho; rfl
    · exact hs.2 o b t ho

theorem setPerl (v : Val) : Begins k r (r.target.setPerl v) := fail _

theorem setBinary (b : Bytes) : Begins k r (r.target.setBinary b) := fail _

theorem undef (c : Bool) : Begins k r (undefMem cfg c r.target) := by
  unfold undefMem
  refine Carries.ite (setPerl _) (Carries.ite (bind' (lift _) fun _ => setPerl _) ?_)
  exact pure ()

/-- Only a struct of the same type can be assigned. -/
theorem assign_other {ty : Ty} (h : Ty.strct r.id ≠ ty) (v : MVal) : Begins k r (r.target.assign ty v) := by
  unfold Target.assign
  rw [if_neg (show ¬ r.target.ty = ty from h), if_neg (show ¬ r.target.ty = .iface by intro h; cases h)]
  exact fail _

theorem assignAny (v : Val) : Begins k r (r.target.assignAny v) := by
  unfold Target.assignAny
  refine Carries.ite (fail _) ?_
  rw [if_neg (show ¬ r.target.ty = .iface by intro h; cases h)]
  cases hv : v.typed with
  | none => exact Carries.ite (fail _) (fail _)
  | some p =>
    obtain ⟨ty, w⟩ := p
    refine assign_other ?_ w
    rintro rfl
    unfold Val.typed at hv
    split at hv <;> cases hv

theorem fromAny (b : Bool) (v : Val) (ro : Bool) :
    Begins k r (r.target.fromAny cfg b (if v = .nil then .zero else .iface v) ro) := by
  unfold Target.fromAny
  refine bind' (failIf _) fun _ => bind' (failIf _) fun _ => ?_
  refine Carries.ite ?_ ?_
  · by_cases h : v = .nil
    · rw [if_pos h]; exact fail _
    · rw [if_neg h]
      split
      · next h => cases h
      · refine bind' (lift _) fun w => ?_
        rw [if_neg (show ¬ r.target.ty = .iface by intro h; cases h)]
        exact fail _
      · exact bind' (lift _) fun w => assignAny _
      · exact fail _
  · by_cases h : v = .nil
    · rw [if_pos h]; exact fail _
    · rw [if_neg h]; exact assignAny _

/-- A reference to the struct itself in its own place. -/
theorem assign_self (h : Hides tc buf k r i) {s : MSt} (hs : Locked k s) :
    Locked k (r.target.assign (.strct r.id) (s.mem.get r.l) s).2 := by
  have : r.target.assign (.strct r.id) (s.mem.get r.l) s = (.ok (), { s with mem := s.mem.put r.l (s.mem.get r.l) }) := by
    have e : r.target.assign (.strct r.id) (s.mem.get r.l) = r.target.write (s.mem.get r.l) := by
      unfold Target.assign
      rw [if_pos (show r.target.ty = Ty.strct r.id from rfl)]
    rw [e]; rfl
  rw [this]
  refine ⟨?_, hs.maps, hs.typed, hs.above, hs.out, ?_⟩
  · intro b hb
    dsimp only [Mem.put]
    split
    · exact Inside.put (hs.get (Or.inr h.base)) (hs.vars b hb)
    · exact hs.vars b hb
  · dsimp only [Mem.put]
    rw [if_pos h.base.symm, h.path]
    show ((s.mem.vars k.b).put r.l.path ((s.mem.vars r.l.base).get r.l.path)).get _ = _
    rw [h.base, MVal.put_same, ← h.path]
    exact hs.kept

theorem refp (h : Hides tc buf k r i) (j : Nat) (b : Bool) : Begins k r (refpMem cfg buf j b r.target) := by
  unfold refpMem
  refine bind' (lift _) fun q => bind' (failIf _) fun _ => ?_
  intro s hs
  have any : ∀ loc, Begins k r (do
      let v ← M.lift (readLoc loc)
      r.target.fromAny cfg b (if v = .nil then .zero else .iface v) false
      Pure.pure (j + q.2) : M Nat) := fun loc => bind' (lift _) fun v => fin (fromAny b v _)
  rw [M.bind_apply]
  show Locked k (_ : Except Exn Nat × MSt).2 ∧ _
  refine ⟨?_, fun _ _ => trivial⟩
  show Locked k ((match s.d.tracked q.1.toNat with | none => _ | some loc => _ : M Nat) s).2
  cases hl : s.d.tracked q.1.toNat with
  | none => dsimp only; exact ((Carries.ite (err _) (err _) : Begins k r _) s hs).1
  | some loc =>
    dsimp only
    cases ht : s.typed q.1.toNat with
    | none => exact (any loc s hs).1
    | some p =>
      obtain ⟨a, rv⟩ := p
      obtain rfl := hs.2 _ _ _ ht
      dsimp only
      by_cases ha : loc = .cell a
      · rw [if_pos ha, M.bind_apply]
        show Locked k ((_ : M Nat) s).2
        have key : Locked k ((do
            M.failIf (r.target.ro = true) (.panic "reflect: using unexported field")
            r.target.assign r.target.ty (s.mem.get r.l)
            Pure.pure (j + q.2) : M Nat) s).2 := by
          have h1 := assign_self h hs.1
          show Locked k ((r.target.assign (.strct r.id) (s.mem.get r.l) >>= fun _ => Pure.pure (j + q.2) : M Nat) s).2
          rw [M.bind_apply]
          rcases hx : r.target.assign (.strct r.id) (s.mem.get r.l) s with ⟨x, s'⟩
          rw [hx] at h1
          cases x <;> exact h1
        cases hv : s.mem.get r.l with
        | ptr l => rw [hv] at key; exact key
        | _ => rw [hv] at key; exact key
      · rw [if_neg ha]
        exact (any loc s hs).1

theorem freeze (h : Hides tc buf k r i) (j : Nat) (b : Bool) : Begins k r (freezeMem cfg tc buf j r.target b) := by
  unfold freezeMem
  refine bind' (lift _) fun q => bind' (failIf _) fun _ => bind' (lift _) fun _ => bind' (lift _) fun _ => bind' (failIf _) fun _ =>
    bind' (lift _) fun q => ?_
  dsimp only
  split
  · refine bind' (failIf _) fun _ => bind' (lift _) fun w => ?_
    split
    · refine Carries.ite (bind' (lift _) fun _ => fin (setPerl _)) ?_
      have hu : Carries (Early k r) (Early k r) (unmarshalMem tc r.target ‹Bytes›) fun _ => True := by
        unfold unmarshalMem
        show Carries _ _ (M.failIf _ _ >>= fun _ => _) _
        refine Carries.bind (fun _ h => h) (failIf _) fun _ _ => ?_
        show Carries _ _ (match Place.var r.l, (tc.types r.id).unmarshal with
          | .var l, some f => _
          | _, _ => _) _
        rw [h.plain]
        exact Carries.pure (fun _ h => h) trivial
      refine bind' hu fun u => Carries.ite (pure _) (bind' (read _) fun v => ?_)
      rw [if_neg (fun h => by cases h.1)]
      exact err _
    · exact err _
  · exact err _

/-- The fields: each is locked and read-only, or another one. -/
theorem part (h : Hides tc buf k r i) {j : Nat} {f : TField} (hf : (tc.types r.id).fields[j]? = some f)
    (hn : i = j → f.exported = false) :
    (r.target.part j (tc.types r.id).fields.length f.ty f.exported).Free k := by
  show _ ∨ _
  by_cases hj : i = j
  · subst hj
    refine Or.inr ⟨h.base, ?_⟩
    show (false || !f.exported) = true
    rw [hn rfl]; rfl
  · refine Or.inl (Or.inr ⟨h.base, ?_⟩)
    show Off k.q (r.l.path ++ [_])
    rw [h.path]
    exact Off.other hj

theorem fields (h : Hides tc buf k r i) (hrec : FreeRec k rec) (n j : Nat) :
    Begins k r (fieldsMem cfg tc buf rec (tc.types r.id).fields r.target n j) := by
  refine later (Q := fun _ => True) ?_
  induction n generalizing j with
  | zero => exact Keeping.pure trivial
  | succ n ih =>
    unfold fieldsMem
    refine Keeping.bind (Keeping.lifted (decodeStringish_infix buf j)) fun q hq => ?_
    dsimp only
    split
    · next hk =>
      split
      · next hf =>
        refine Keeping.bind' (hrec _ _ (part h hf ?_)) fun _ => ih _
        rintro rfl
        exact h.field.elim (fun h => h _ hf) fun h => absurd hk (h _ hq)
      · exact Keeping.fail _
    · exact Keeping.bind' (Keeping.lift _) fun _ => ih _

theorem hash (h : Hides tc buf k r i) (hrec : FreeRec k rec) (j : Nat) (ln : Int) :
    Begins k r (checkedHashMem cfg tc buf rec j ln r.target) := by
  unfold checkedHashMem
  exact bind' (lift _) fun _ => fields h hrec _ _

theorem array (j : Nat) (ln : Int) : Begins k r (arrayMem cfg buf rec j ln r.target) := by
  unfold arrayMem
  exact bind' (failIf _) fun _ => bind' (failIf _) fun _ => err _

theorem withCopy {x : M α} (hx : Begins k r x) : Begins k r (withCopyMem x) := by
  intro s hs
  obtain ⟨h1, h2⟩ := hx { s with d := { s.d with copyDepth := s.d.copyDepth + 1 } } ⟨hs.1.lift _, hs.2⟩
  unfold withCopyMem
  rcases hr : x { s with d := { s.d with copyDepth := s.d.copyDepth + 1 } } with ⟨q, s'⟩
  rw [hr] at h1
  refine ⟨?_, fun _ _ => trivial⟩
  cases q with
  | ok a => exact h1.lift _
  | error e =>
    cases e with
    | err e => exact h1.lift _
    | _ => exact h1

theorem body (h : Hides tc buf k r i) (hrec : FreeRec k rec) (hroot : ∀ j, Begins k r (rec j r.target)) (c : TagC) (j tag : Nat) :
    Begins k r (memC cfg tc buf rec c j r.target tag) := by
  have inner : ∀ (v : Val) (j : Nat), Begins k r (do
        let a ← M.lift (allocVar v)
        r.target.setPerl (.ptr false a)
        M.lift (decode cfg buf (fuelFor buf.length) j (.field a))) := fun v j => bind' (lift _) fun _ => fail _
  cases c with
  | int n => exact fail _
  | varint => exact bind' (lift _) fun _ => fail _
  | zigzag => exact bind' (lift _) fun _ => fail _
  | float => exact bind' (lift _) fun _ => fail _
  | double => exact bind' (lift _) fun _ => fail _
  | true_ => exact fail _
  | false_ => exact fail _
  | binary => exact bind' (lift _) fun _ => bind' (lift _) fun _ => fail _
  | short n => exact bind' (lift _) fun _ => fail _
  | strUtf8 => exact bind' (lift _) fun _ => bind' (lift _) fun _ => fail _
  | hash => exact bind' (lift _) fun _ => hash h hrec _ _
  | hashref n => exact hash h hrec _ _
  | array => exact bind' (lift _) fun _ => array _ _
  | arrayref n => exact array (cfg := cfg) (rec := rec) _ _
  | undef => exact fin (undef _)
  | cundef => exact fin (undef _)
  | copy =>
    exact get fun _ => bind' (failIf _) fun _ => bind' (lift _) fun _ => bind' (failIf _) fun _ => fin (withCopy (hroot _))
  | refn => exact hroot _
  | refp => exact refp h _ _
  | alias => exact refp h _ _
  | weaken => exact Carries.ite (inner _ _) (hroot _)
  | regexp => exact bind' (lift _) fun _ => bind' (lift _) fun _ => fail _
  | object => exact bind' (lift _) fun _ => Carries.ite (inner _ _) (hroot _)
  | objectv => exact bind' (lift _) fun _ => Carries.ite (inner _ _) (hroot _)
  | freeze => exact freeze h _ _
  | freezev => exact freeze h _ _
  | pad => exact err _
  | other => exact err _

/-- Decoding into the struct keeps the locked field. -/
theorem decode (h : Hides tc buf k r i) (f j : Nat) : Begins k r (decodeMem cfg tc buf f j r.target) := by
  induction f generalizing j with
  | zero => exact fail _
  | succ f ih =>
    unfold decodeMem
    refine bind' (failIf _) fun _ => bind' (read _) fun v => ?_
    rw [if_neg (fun h => by cases h.1)]
    refine bind' (lift _) fun q => ?_
    dsimp only
    have rest : Begins k r (tagMem cfg tc buf (decodeMem cfg tc buf f) (q.2 &&& ~~~ trackFlag) (q.1 + 1) r.target) := by
      rw [tagMem_eq _ _ _ _ _ _ _ (untracked_lt q.2)]
      exact body h (Keeping.decode cfg tc buf f) ih _ _ _
    exact Carries.ite (bind' (track h _) fun _ => rest) rest

end Begins
end Sereal
