import Verif.Spec.Outside
import Verif.Proof.LayLeaf
/-
Decoding into a typed variable touches nothing that cannot be reached from it.
-/
namespace Sereal

/-- All that `v` mentions is in `R`. -/
def MVal.Inside (R : Nat → Prop) (v : MVal) : Prop := ∀ n, Mentions n v → R n

def Target.Inside (R : Nat → Prop) (t : Target) : Prop :=
  match t.place with
  | .var l => R l.base
  | .tmp v => v.Inside R

/-- `R` is closed, entries of the table are inside, and outside of `R` the memory is `m0`. -/
structure Fence (R : Nat → Prop) (m0 : Mem) (s : MSt) : Prop where
  vars : ∀ b, R b → (s.mem.vars b).Inside R
  maps : ∀ b, R b → ∀ k v, (k, v) ∈ s.mem.maps b → v.Inside R
  typed : ∀ o a t, s.typed o = some (a, t) → t.Inside R
  above : ∀ b, s.mem.next ≤ b → R b
  outVars : ∀ b, ¬ R b → s.mem.vars b = m0.vars b
  outMaps : ∀ b, ¬ R b → s.mem.maps b = m0.maps b

/-- `x` stays inside. -/
def Fenced (R : Nat → Prop) (m0 : Mem) (x : M α) (Q : α → Prop) : Prop :=
  ∀ s, Fence R m0 s → Fence R m0 (x s).2 ∧ ∀ a, (x s).1 = .ok a → Q a

section
variable {R : Nat → Prop} {m0 : Mem}

theorem Inside.parts {v : MVal} (h : v.Inside R) (n : Nat) : ∀ w ∈ v.parts n, w.Inside R := by
  intro w hw k hk
  unfold MVal.parts at hw
  split at hw
  · next vs =>
    obtain ⟨i, -, rfl⟩ := List.mem_map.1 hw
    rw [List.getD_eq_getElem?_getD] at hk
    cases hi : vs[i]? with
    | none => rw [hi] at hk; cases hk
    | some x =>
      rw [hi] at hk
      exact h k (.multi (List.mem_of_getElem? hi) hk)
  · rw [(List.mem_replicate.1 hw).2] at hk
    cases hk

theorem Inside.zero : MVal.zero.Inside R := fun _ h => by cases h

theorem Inside.part {v : MVal} (h : v.Inside R) (i n : Nat) : ((v.parts n).getD i .zero).Inside R := by
  rw [List.getD_eq_getElem?_getD]
  cases hi : (v.parts n)[i]? with
  | none => exact Inside.zero
  | some x => exact Inside.parts h n x (List.mem_of_getElem? hi)

theorem Inside.get {p : List (Nat × Nat)} : ∀ {v : MVal}, v.Inside R → (v.get p).Inside R := by
  induction p with
  | nil => intro v h; exact h
  | cons a p ih => intro v h; exact ih (Inside.part h _ _)

theorem Inside.multi {vs : List MVal} (h : ∀ v ∈ vs, v.Inside R) : (MVal.multi vs).Inside R := by
  intro n hn
  cases hn with
  | multi h1 h2 => exact h _ h1 n h2

theorem Inside.put {p : List (Nat × Nat)} {w : MVal} (hw : w.Inside R) : ∀ {v : MVal}, v.Inside R → (v.put p w).Inside R := by
  induction p with
  | nil => intro v h; exact hw
  | cons a p ih =>
    intro v h
    refine Inside.multi fun x hx => ?_
    rcases List.mem_or_eq_of_mem_set hx with h1 | h1
    · exact Inside.parts h _ x h1
    · rw [h1]; exact ih (Inside.part h _ _)

theorem Fence.get {s : MSt} (h : Fence R m0 s) {l : Spot} (hl : R l.base) : (s.mem.get l).Inside R :=
  Inside.get (h.vars _ hl)

theorem Fence.put {s : MSt} (h : Fence R m0 s) {l : Spot} {v : MVal} (hl : R l.base) (hv : v.Inside R) :
    Fence R m0 { s with mem := s.mem.put l v } := by
  refine ⟨?_, h.maps, h.typed, h.above, ?_, h.outMaps⟩
  · intro b hb
    dsimp only [Mem.put]
    split
    · exact Inside.put hv (h.vars b hb)
    · exact h.vars b hb
  · intro b hb
    dsimp only [Mem.put]
    rw [if_neg (by rintro rfl; exact hb hl)]
    exact h.outVars b hb

theorem Fence.new {s : MSt} (h : Fence R m0 s) {v : MVal} (hv : v.Inside R) : Fence R m0 { s with mem := s.mem.new v } := by
  refine ⟨?_, h.maps, h.typed, fun b hb => h.above b (by dsimp only [Mem.new] at hb; omega), ?_, h.outMaps⟩
  · intro b hb
    dsimp only [Mem.new]
    split
    · exact hv
    · exact h.vars b hb
  · intro b hb
    dsimp only [Mem.new]
    rw [if_neg (by rintro rfl; exact hb (h.above _ (Nat.le_refl _)))]
    exact h.outVars b hb

theorem Fence.newMap {s : MSt} (h : Fence R m0 s) : Fence R m0 { s with mem := s.mem.newMap } := by
  refine ⟨h.vars, ?_, h.typed, fun b hb => h.above b (by dsimp only [Mem.newMap] at hb; omega), h.outVars, ?_⟩
  · intro b hb k v hk
    dsimp only [Mem.newMap] at hk
    split at hk
    · cases hk
    · exact h.maps b hb k v hk
  · intro b hb
    dsimp only [Mem.newMap]
    rw [if_neg (by rintro rfl; exact hb (h.above _ (Nat.le_refl _)))]
    exact h.outMaps b hb

theorem mem_mapInsert {k : Bytes} {v : MVal} {es : List (Bytes × MVal)} {x : Bytes × MVal} (h : x ∈ mapInsert k v es) :
    x.2 = v ∨ x ∈ es := by
  induction es with
  | nil => simp [mapInsert] at h; exact Or.inl (by rw [h])
  | cons e es ih =>
    obtain ⟨k', v'⟩ := e
    simp only [mapInsert] at h
    split at h
    · rcases List.mem_cons.1 h with h | h
      · exact Or.inl (by rw [h])
      · exact Or.inr (List.mem_cons_of_mem _ h)
    · rcases List.mem_cons.1 h with h | h
      · exact Or.inr (by rw [h]; exact List.mem_cons_self)
      · exact (ih h).imp_right (List.mem_cons_of_mem _)

theorem Fence.insert {s : MSt} (h : Fence R m0 s) {m : Nat} {k : Bytes} {v : MVal} (hm : R m) (hv : v.Inside R) :
    Fence R m0 { s with mem := s.mem.insert m k v } := by
  refine ⟨h.vars, ?_, h.typed, h.above, h.outVars, ?_⟩
  · intro b hb k' v' hk
    dsimp only [Mem.insert] at hk
    split at hk
    · rcases mem_mapInsert hk with h1 | h1
      · dsimp only at h1; rw [h1]; exact hv
      · exact h.maps b hb k' v' h1
    · exact h.maps b hb k' v' hk
  · intro b hb
    dsimp only [Mem.insert]
    rw [if_neg (by rintro rfl; exact hb hm)]
    exact h.outMaps b hb

end

namespace Fenced
variable {R : Nat → Prop} {m0 : Mem}

theorem pure {a : α} {Q : α → Prop} (h : Q a) : Fenced R m0 (Pure.pure a : M α) Q :=
  fun s hs => ⟨hs, fun b hb => by cases hb; exact h⟩
theorem fail {Q : α → Prop} (e : Exn) : Fenced R m0 (M.fail e : M α) Q :=
  fun s hs => ⟨hs, fun b hb => by cases hb⟩
theorem err {Q : α → Prop} (e : Err) : Fenced R m0 (M.err e : M α) Q := fail _

theorem bind {x : M α} {f : α → M β} {P : α → Prop} {Q : β → Prop} (hx : Fenced R m0 x P)
    (hf : ∀ a, P a → Fenced R m0 (f a) Q) : Fenced R m0 (x >>= f) Q := by
  intro s hs
  obtain ⟨h1, h2⟩ := hx s hs
  rw [M.bind_apply]
  rcases hr : x s with ⟨r, s'⟩
  rw [hr] at h1 h2
  cases r with
  | ok a => exact hf a (h2 a rfl) s' h1
  | error e => exact ⟨h1, fun b hb => by cases hb⟩

theorem mono {x : M α} {P Q : α → Prop} (hx : Fenced R m0 x P) (h : ∀ a, P a → Q a) : Fenced R m0 x Q :=
  fun s hs => ⟨(hx s hs).1, fun a ha => h a ((hx s hs).2 a ha)⟩

/-- For results that hold no references. -/
theorem bind' {x : M α} {f : α → M β} {Q : β → Prop} (hx : Fenced R m0 x fun _ => True)
    (hf : ∀ a, Fenced R m0 (f a) Q) : Fenced R m0 (x >>= f) Q := bind hx fun a _ => hf a

theorem failIf {c : Prop} [Decidable c] (e : Exn) : Fenced R m0 (M.failIf c e) fun _ => True := by
  unfold M.failIf
  split
  · exact fail e
  · exact pure trivial

theorem ite {c : Prop} [Decidable c] {x y : M α} {Q : α → Prop} (h1 : Fenced R m0 x Q) (h2 : Fenced R m0 y Q) :
    Fenced R m0 (if c then x else y) Q := by
  split
  · exact h1
  · exact h2

theorem lift (x : D α) : Fenced R m0 (M.lift x) fun _ => True :=
  fun s hs => ⟨⟨hs.vars, hs.maps, hs.typed, hs.above, hs.outVars, hs.outMaps⟩, fun _ _ => trivial⟩

theorem read {t : Target} (ht : t.Inside R) : Fenced R m0 t.read fun v => v.Inside R := by
  intro s hs
  unfold Target.Inside at ht
  unfold Target.read
  cases hp : t.place with
  | var l => rw [hp] at ht; exact ⟨hs, fun a ha => by cases ha; exact hs.get ht⟩
  | tmp v => rw [hp] at ht; exact ⟨hs, fun a ha => by cases ha; exact ht⟩

theorem write {t : Target} {v : MVal} (ht : t.Inside R) (hv : v.Inside R) : Fenced R m0 (t.write v) fun _ => True := by
  unfold Target.write
  unfold Target.Inside at ht
  split
  · next l hp =>
    rw [hp] at ht
    exact ite (fail _) fun s hs => ⟨hs.put ht hv, fun _ _ => trivial⟩
  · exact fail _

theorem newVar {v : MVal} (hv : v.Inside R) : Fenced R m0 (Sereal.newVar v) fun l => R l.base :=
  fun s hs => ⟨hs.new hv, fun a ha => by cases ha; exact hs.above _ (Nat.le_refl _)⟩

theorem newMap : Fenced R m0 Sereal.newMap R :=
  fun s hs => ⟨hs.newMap, fun a ha => by cases ha; exact hs.above _ (Nat.le_refl _)⟩

theorem plain {v : MVal} (h : ∀ n, ¬ Mentions n v) : v.Inside R := fun n hn => absurd hn (h n)

theorem bytes (s : Bytes) : ∀ v ∈ s.map MVal.ofByte, v.Inside R := by
  intro v hv
  obtain ⟨b, -, rfl⟩ := List.mem_map.1 hv
  intro n hn
  cases hn

theorem slice {l : Spot} {a b c : Nat} (h : R l.base) : (MVal.slice l a b c).Inside R := by
  intro n hn
  cases hn with
  | slice h1 => exact h1 ▸ h

theorem ptr {l : Spot} (h : R l.base) : (MVal.ptr l).Inside R := by
  intro n hn
  cases hn with
  | ptr h1 => exact h1 ▸ h

theorem map {m : Nat} (h : R m) : (MVal.map m).Inside R := by
  intro n hn
  cases hn with
  | map => exact h

theorem any {ty : Ty} {v : MVal} (h : v.Inside R) : (MVal.any ty v).Inside R := by
  intro n hn
  cases hn with
  | any h1 => exact h n h1

theorem ofAny {ty : Ty} {v : MVal} (h : (MVal.any ty v).Inside R) : v.Inside R := fun n hn => h n (.any hn)
theorem ofPtr {l : Spot} (h : (MVal.ptr l).Inside R) : R l.base := h _ (.ptr rfl)
theorem ofSlice {l : Spot} {a b c : Nat} (h : (MVal.slice l a b c).Inside R) : R l.base := h _ (.slice rfl)
theorem ofMap {m : Nat} (h : (MVal.map m).Inside R) : R m := h _ .map

theorem makeSlice {t : Target} {vs : List MVal} (ht : t.Inside R) (hv : ∀ v ∈ vs, v.Inside R) :
    Fenced R m0 (t.makeSlice vs) fun _ => True :=
  bind (newVar (Inside.multi hv)) fun _ hl => write ht (slice hl)

theorem setInt {t : Target} (ht : t.Inside R) (i : Int64) : Fenced R m0 (t.setInt i) fun _ => True := by
  unfold Target.setInt; split
  · exact write ht (plain fun _ h => by cases h)
  · exact write ht (plain fun _ h => by cases h)
  · exact fail _

theorem setFloat {t : Target} (ht : t.Inside R) (tc : TCfg) (u : UInt64) : Fenced R m0 (t.setFloat tc u) fun _ => True := by
  unfold Target.setFloat; split
  · exact write ht (plain fun _ h => by cases h)
  · exact write ht (plain fun _ h => by cases h)
  · exact fail _

theorem setBool {t : Target} (ht : t.Inside R) (b : Bool) : Fenced R m0 (t.setBool b) fun _ => True := by
  unfold Target.setBool; split
  · exact write ht (plain fun _ h => by cases h)
  · exact fail _

theorem setString {t : Target} (ht : t.Inside R) (s : Bytes) : Fenced R m0 (t.setString s) fun _ => True := by
  unfold Target.setString; split
  · exact write ht (plain fun _ h => by cases h)
  · exact fail _

theorem overlay {vs : List MVal} (h : ∀ v ∈ vs, v.Inside R) (a b : Nat) (s : Bytes) :
    (MVal.multi (overlayMem vs a b s)).Inside R := by
  refine Inside.multi fun v hv => ?_
  unfold overlayMem at hv
  rcases List.mem_append.1 hv with hv | hv
  · rcases List.mem_append.1 hv with hv | hv
    · exact h v (List.mem_of_mem_take hv)
    · exact bytes _ v hv
  · exact h v (List.mem_of_mem_drop hv)

theorem setBinary {t : Target} (ht : t.Inside R) (s : Bytes) : Fenced R m0 (t.setBinary s) fun _ => True := by
  unfold Target.setBinary; split
  · refine bind (read ht) fun v hv => ?_
    split
    · refine bind' (failIf _) fun _ => ?_
      have hl := ofSlice hv
      exact fun st hs => ⟨hs.put hl (overlay (Inside.parts (hs.get hl) _) _ _ _), fun _ _ => trivial⟩
    · exact makeSlice ht (bytes _)
  · exact fail _
  · exact bind (read ht) fun v hv => write ht (overlay (Inside.parts hv _) _ _ _)
  · exact fail _
  · exact write ht (plain fun _ h => by cases h)
  · exact fail _

theorem setPerl {t : Target} (ht : t.Inside R) (v : Val) : Fenced R m0 (t.setPerl v) fun _ => True := by
  unfold Target.setPerl; split
  · exact write ht (plain fun _ h => by cases h)
  · exact fail _

theorem undef (cfg : DCfg) (c : Bool) {t : Target} (ht : t.Inside R) : Fenced R m0 (undefMem cfg c t) fun _ => True := by
  unfold undefMem
  split
  · exact setPerl ht _
  · split
    · exact bind' (lift _) fun _ => setPerl ht _
    · split
      · exact write ht Inside.zero
      · exact write ht Inside.zero
      · exact write ht Inside.zero
      · exact pure trivial

theorem assign {t : Target} (ht : t.Inside R) (ty : Ty) {v : MVal} (hv : v.Inside R) :
    Fenced R m0 (t.assign ty v) fun _ => True := by
  unfold Target.assign
  split
  · exact write ht hv
  · split
    · exact write ht (any hv)
    · exact fail _

theorem typedVal {v : Val} {ty : Ty} {w : MVal} (h : v.typed = some (ty, w)) : w.Inside R := by
  unfold Val.typed at h
  intro n hn
  split at h <;> cases h <;> cases hn

theorem assignAny {t : Target} (ht : t.Inside R) (v : Val) : Fenced R m0 (t.assignAny v) fun _ => True := by
  unfold Target.assignAny
  split
  · exact fail _
  · split
    · exact write ht (plain fun _ h => by cases h)
    · split
      · next h => exact assign ht _ (typedVal h)
      · split
        · exact fail _
        · exact fail _

theorem fromAny (cfg : DCfg) (r : Bool) {t : Target} (ht : t.Inside R) {v : MVal} (hv : v.Inside R) (ro : Bool) :
    Fenced R m0 (t.fromAny cfg r v ro) fun _ => True := by
  unfold Target.fromAny
  refine bind' (failIf _) fun _ => bind' (failIf _) fun _ => ?_
  split
  · split
    · exact bind (read (ofPtr (ofAny hv))) fun _ hw => assign ht _ hw
    · refine bind' (lift _) fun w => ?_
      split
      · refine write ht ?_
        split
        · exact Inside.zero
        · exact plain fun _ h => by cases h
      · exact fail _
    · exact bind' (lift _) fun w => assignAny ht _
    · exact fail _
  · split
    · exact assign ht _ (ofAny hv)
    · exact assignAny ht _
    · exact fail _

theorem call (f : Bytes → Option Nat) (data : Bytes) {l : Spot} (hl : R l.base) :
    Fenced R m0 (callUnmarshal f data l) fun _ => True := by
  unfold callUnmarshal
  split
  · exact err _
  · exact fun s hs => ⟨hs.put hl (plain fun _ h => by cases h), fun _ _ => trivial⟩

theorem deref {t : Target} (ht : t.Inside R) (e : Ty) : Fenced R m0 (t.deref e) fun t' => t'.Inside R := by
  unfold Target.deref
  refine bind (read ht) fun v hv => ?_
  split
  · exact pure (ofPtr hv)
  · exact bind (newVar Inside.zero) fun l hl => bind' (write ht (ptr hl)) fun _ => pure hl

theorem unmarshal (tc : TCfg) {t : Target} (ht : t.Inside R) (data : Bytes) :
    Fenced R m0 (unmarshalMem tc t data) fun _ => True := by
  have no : ∀ m, Fenced R m0 (M.failIf t.unaddressable (.panic m) >>= fun _ => Pure.pure false : M Bool) fun _ => True :=
    fun m => bind' (failIf _) fun _ => pure trivial
  have yes : ∀ f (l : Spot), R l.base → Fenced R m0 (callUnmarshal f data l >>= fun _ => Pure.pure true : M Bool) fun _ => True :=
    fun f l hl => bind' (call _ _ hl) fun _ => pure trivial
  unfold unmarshalMem
  split
  · refine bind (deref ht _) fun t' ht' => bind' (failIf _) fun _ => ?_
    split
    · next hp =>
      unfold Target.Inside at ht'
      rw [show t'.place = _ by assumption] at ht'
      split
      · exact yes _ _ ht'
      · exact no _
    · exact no _
  · refine bind' (failIf _) fun _ => ?_
    split
    · next hp _ =>
      unfold Target.Inside at ht
      rw [hp] at ht
      exact yes _ _ ht
    · exact pure trivial
  · refine bind' (failIf _) fun _ => bind (read ht) fun v hv => ?_
    split
    · split
      · exact yes _ _ (ofPtr (ofAny hv))
      · exact fail _
      · exact no _
    · exact fail _
    · exact fail _
    · exact no _
  · exact no _

theorem lookup {t : Target} (ht : t.Inside R) (key : Bytes) :
    Fenced R m0 (t.lookup key) fun r => ∀ v, r = some v → v.Inside R := by
  unfold Target.lookup
  refine bind (read ht) fun v hv => ?_
  cases v with
  | map m =>
    intro s hs
    refine ⟨hs, fun r hr w hw => ?_⟩
    have hr : mapLookup key (s.mem.maps m) = r := by injection hr
    rw [hw] at hr
    exact hs.maps m (ofMap hv) key w (mapLookup_mem hr)
  | _ => exact pure fun _ h => by cases h

theorem insert {t : Target} (ht : t.Inside R) (key : Bytes) {v : MVal} (hv : v.Inside R) :
    Fenced R m0 (t.insert key v) fun _ => True := by
  unfold Target.insert
  refine bind' (failIf _) fun _ => bind (read ht) fun w hw => ?_
  cases w with
  | map m => exact fun s hs => ⟨hs.insert (ofMap hw) hv, fun _ _ => trivial⟩
  | _ => exact fail _

end Fenced

/-- Recursive calls stay inside. -/
def FencedRec (R : Nat → Prop) (m0 : Mem) (rec : MRec) : Prop :=
  ∀ i t, t.Inside R → Fenced R m0 (rec i t) fun _ => True

namespace Fenced
section
variable {R : Nat → Prop} {m0 : Mem} {cfg : DCfg} {tc : TCfg} {buf : Bytes} {rec : MRec}

theorem partOf {t : Target} (ht : t.Inside R) (i n : Nat) (ty : Ty) (x : Bool) : (t.part i n ty x).Inside R := by
  unfold Target.Inside at *
  unfold Target.part
  cases hp : t.place with
  | var l => rw [hp] at ht; exact ht
  | tmp v => rw [hp] at ht; exact Inside.part ht i n

theorem elems (hrec : FencedRec R m0 rec) {t : Target} (ht : t.Inside R) (len n k i : Nat) :
    Fenced R m0 (elemsMem cfg buf rec t len n k i) fun _ => True := by
  induction n generalizing k i with
  | zero => exact pure trivial
  | succ n ih =>
    unfold elemsMem
    refine ite ?_ (bind' (lift _) fun _ => ih _ _)
    split
    · refine bind (read ht) fun v hv => ?_
      split
      · refine bind' (failIf _) fun _ => bind' (hrec _ _ ?_) fun _ => ih _ _
        have := ofSlice hv
        exact this
      · exact fail _
    · exact bind' (hrec _ _ (partOf ht _ _ _ _)) fun _ => ih _ _
    · exact fail _

theorem array (hrec : FencedRec R m0 rec) {t : Target} (ht : t.Inside R) (i : Nat) (ln : Int) :
    Fenced R m0 (arrayMem cfg buf rec i ln t) fun _ => True := by
  unfold arrayMem
  refine bind' (failIf _) fun _ => bind' (failIf _) fun _ => ?_
  split
  · refine bind (read ht) fun v hv => ?_
    have rest : Fenced R m0 (t.read >>= fun v => elemsMem cfg buf rec t v.len ln.toNat 0 i) fun _ => True :=
      bind (read ht) fun _ _ => elems hrec ht _ _ _ _
    refine ite ?_ rest
    refine bind' (makeSlice ht ?_) fun _ => rest
    intro v hv
    rw [(List.mem_replicate.1 hv).2]
    exact Inside.zero
  · exact elems hrec ht _ _ _ _
  · exact err _

theorem entries (hrec : FencedRec R m0 rec) (e : Ty) {t : Target} (ht : t.Inside R) (n i : Nat) :
    Fenced R m0 (entriesMem buf rec e t n i) fun _ => True := by
  induction n generalizing i with
  | zero => exact pure trivial
  | succ n ih =>
    unfold entriesMem
    refine bind' (lift _) fun r => bind (lookup ht _) fun o ho => ?_
    split
    · exact bind' (hrec _ _ (ho _ rfl)) fun _ => ih _
    · refine bind (newVar Inside.zero) fun l hl => bind' (hrec _ _ hl) fun _ => bind (read (t := ⟨e, .var l, false⟩) hl) fun v hv =>
        bind' (insert ht _ hv) fun _ => ih _

theorem fields (hrec : FencedRec R m0 rec) (fs : List TField) {t : Target} (ht : t.Inside R) (n i : Nat) :
    Fenced R m0 (fieldsMem cfg tc buf rec fs t n i) fun _ => True := by
  induction n generalizing i with
  | zero => exact pure trivial
  | succ n ih =>
    unfold fieldsMem
    refine bind' (lift _) fun r => ?_
    dsimp only
    split
    · split
      · exact bind' (hrec _ _ (partOf ht _ _ _ _)) fun _ => ih _
      · exact fail _
    · exact bind' (lift _) fun _ => ih _

theorem hash (hrec : FencedRec R m0 rec) (i n : Nat) (ty : Ty) : ∀ {t : Target}, t.Inside R →
    Fenced R m0 (hashMem cfg tc buf rec i n ty t) fun _ => True := by
  induction ty with
  | map e =>
    intro t ht
    unfold hashMem
    refine bind (read ht) fun v hv => ?_
    refine ite ?_ (entries hrec _ ht _ _)
    exact bind newMap fun m hm => bind' (write ht (map hm)) fun _ => entries hrec _ ht _ _
  | ptr e ih =>
    intro t ht
    unfold hashMem
    exact bind (deref ht _) fun t' ht' => ih ht'
  | strct id => intro t ht; unfold hashMem; exact fields hrec _ ht _ _
  | _ => intro t ht; unfold hashMem; exact err _

theorem get {f : MSt → M α} {Q : α → Prop} (h : ∀ s, Fence R m0 s → Fenced R m0 (f s) Q) : Fenced R m0 (M.get >>= f) Q :=
  fun s hs => h s hs s hs

theorem refp {t : Target} (ht : t.Inside R) (i : Nat) (b : Bool) : Fenced R m0 (refpMem cfg buf i b t) fun _ => True := by
  have any : ∀ v : Val, (if v = .nil then MVal.zero else .iface v).Inside R := by
    intro v
    split
    · exact Inside.zero
    · exact plain fun _ h => by cases h
  unfold refpMem
  refine bind' (lift _) fun r => bind' (failIf _) fun _ => get fun s hs => ?_
  split
  · exact ite (err _) (err _)
  · split
    · next a rv hrv =>
      have hr := hs.typed _ _ _ hrv
      refine ite (bind (read hr) fun v hv => ?_) (bind' (lift _) fun v => bind' (fromAny _ _ ht (any _) _) fun _ => pure trivial)
      split
      · refine ite (bind' (fromAny _ _ ht (hs.get (ofPtr hv)) _) fun _ => pure trivial) ?_
        exact bind' (failIf _) fun _ => bind' (assign ht _ hv) fun _ => pure trivial
      · exact bind' (failIf _) fun _ => bind' (assign ht _ hv) fun _ => pure trivial
    · exact bind' (lift _) fun v => bind' (fromAny _ _ ht (any _) _) fun _ => pure trivial

theorem freeze {t : Target} (ht : t.Inside R) (i : Nat) (b : Bool) : Fenced R m0 (freezeMem cfg tc buf i t b) fun _ => True := by
  unfold freezeMem
  refine bind' (lift _) fun r => bind' (failIf _) fun _ => bind' (lift _) fun _ => bind' (lift _) fun _ => bind' (failIf _) fun _ =>
    bind' (lift _) fun q => ?_
  dsimp only
  split
  · refine bind' (failIf _) fun _ => bind' (lift _) fun w => ?_
    split
    · refine ite (bind' (lift _) fun _ => bind' (setPerl ht _) fun _ => pure trivial) ?_
      refine bind' (unmarshal _ ht _) fun u => ite (pure trivial) (bind (read ht) fun _ _ => ?_)
      exact ite (bind' (makeSlice ht (bytes _)) fun _ => pure trivial) (err _)
    · exact err _
  · exact err _

theorem checkedHash (hrec : FencedRec R m0 rec) {t : Target} (ht : t.Inside R) (i : Nat) (ln : Int) :
    Fenced R m0 (checkedHashMem cfg tc buf rec i ln t) fun _ => True := by
  unfold checkedHashMem
  exact bind' (lift _) fun _ => hash hrec _ _ _ ht

theorem withCopy {x : M α} {Q : α → Prop} (hx : Fenced R m0 x Q) : Fenced R m0 (withCopyMem x) Q := by
  intro s hs
  obtain ⟨h1, h2⟩ := hx { s with d := { s.d with copyDepth := s.d.copyDepth + 1 } }
    ⟨hs.vars, hs.maps, hs.typed, hs.above, hs.outVars, hs.outMaps⟩
  unfold withCopyMem
  rcases hr : x { s with d := { s.d with copyDepth := s.d.copyDepth + 1 } } with ⟨r, s'⟩
  rw [hr] at h1 h2
  have h3 : ∀ d : DState, Fence R m0 { s' with d := d } := fun d => ⟨h1.vars, h1.maps, h1.typed, h1.above, h1.outVars, h1.outMaps⟩
  cases r with
  | ok a => exact ⟨h3 _, fun b hb => h2 b hb⟩
  | error e =>
    cases e with
    | err e => exact ⟨h3 _, fun b hb => by cases hb⟩
    | _ => exact ⟨h1, fun b hb => by cases hb⟩

theorem body (hrec : FencedRec R m0 rec) {t : Target} (ht : t.Inside R) (c : TagC) (i tag : Nat) :
    Fenced R m0 (memC cfg tc buf rec c i t tag) fun _ => True := by
  have inner : ∀ (v : Val) (k : Nat), Fenced R m0 (do
        let a ← M.lift (allocVar v)
        t.setPerl (.ptr false a)
        M.lift (decode cfg buf (fuelFor buf.length) k (.field a))) fun _ => True :=
    fun v k => bind' (lift _) fun _ => bind' (setPerl ht _) fun _ => lift _
  have fin : ∀ {x : M Unit} (k : Nat), Fenced R m0 x (fun _ => True) → Fenced R m0 (x >>= fun _ => Pure.pure k) fun _ => True :=
    fun k h => bind' h fun _ => pure trivial
  cases c with
  | int n => exact fin _ (setInt ht _)
  | varint => exact bind' (lift _) fun _ => fin _ (setInt ht _)
  | zigzag => exact bind' (lift _) fun _ => fin _ (setInt ht _)
  | float => exact bind' (lift _) fun _ => fin _ (setFloat ht _ _)
  | double => exact bind' (lift _) fun _ => fin _ (setFloat ht _ _)
  | true_ => exact fin _ (setBool ht _)
  | false_ => exact fin _ (setBool ht _)
  | binary => exact bind' (lift _) fun _ => bind' (lift _) fun _ => fin _ (setBinary ht _)
  | short n => exact bind' (lift _) fun _ => fin _ (setBinary ht _)
  | strUtf8 => exact bind' (lift _) fun _ => bind' (lift _) fun _ => fin _ (setString ht _)
  | hash => exact bind' (lift _) fun _ => checkedHash hrec ht _ _
  | hashref n => exact checkedHash hrec ht _ _
  | array => exact bind' (lift _) fun _ => array hrec ht _ _
  | arrayref n => exact array hrec ht _ _
  | undef => exact fin _ (undef _ _ ht)
  | cundef => exact fin _ (undef _ _ ht)
  | copy =>
    exact get fun s _ => bind' (failIf _) fun _ => bind' (lift _) fun _ => bind' (failIf _) fun _ =>
      bind' (withCopy (hrec _ _ ht)) fun _ => pure trivial
  | refn => exact hrec _ _ ht
  | refp => exact refp ht _ _
  | alias => exact refp ht _ _
  | weaken => exact ite (inner _ _) (hrec _ _ ht)
  | regexp => exact bind' (lift _) fun _ => bind' (lift _) fun _ => fin _ (setPerl ht _)
  | object => exact bind' (lift _) fun _ => ite (inner _ _) (hrec _ _ ht)
  | objectv => exact bind' (lift _) fun _ => ite (inner _ _) (hrec _ _ ht)
  | freeze => exact freeze ht _ _
  | freezev => exact freeze ht _ _
  | pad => exact err _
  | other => exact err _

theorem track {t : Target} (ht : t.Inside R) (i : Nat) : Fenced R m0 (trackMem i t) fun _ => True := by
  unfold trackMem
  refine bind' (lift _) fun a => bind' (lift _) fun _ => fun s hs => ⟨⟨hs.vars, hs.maps, ?_, hs.above, hs.outVars, hs.outMaps⟩, fun _ _ => trivial⟩
  intro o b t' ho
  dsimp only at ho
  split at ho
  · cases ho; exact ht
  · exact hs.typed o b t' ho

end

/-- decodeViaReflection stays inside. -/
theorem decode {R : Nat → Prop} {m0 : Mem} (cfg : DCfg) (tc : TCfg) (buf : Bytes) (f : Nat) :
    FencedRec R m0 (decodeMem cfg tc buf f) := by
  induction f with
  | zero => intro i t ht; exact fail _
  | succ f ih =>
    intro i t ht
    unfold decodeMem
    refine bind' (failIf _) fun _ => bind (read ht) fun v hv => ite ?_ ?_
    · refine bind' (lift _) fun r => ?_
      dsimp only
      exact ite (bind' (write ht (plain fun _ h => by cases h)) fun _ => pure trivial) (pure trivial)
    · refine bind' (lift _) fun r => ?_
      dsimp only
      have rest : Fenced R m0 (tagMem cfg tc buf (decodeMem cfg tc buf f) (r.2 &&& ~~~ trackFlag) (r.1 + 1) t) fun _ => True := by
        rw [tagMem_eq _ _ _ _ _ _ _ (untracked_lt r.2)]
        exact body ih ht _ _ _
      exact ite (bind' (track ht _) fun _ => rest) rest

end Fenced
end Sereal
