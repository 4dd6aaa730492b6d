import Verif.Spec.Within
import Verif.Proof.Small
import Verif.Proof.Fence
/-
Decoding into a typed variable makes no slice and no string longer than the buffer.
-/
namespace Sereal

def MVal.Slim (N : Nat) (v : MVal) : Prop := ¬ v.Over N

def Target.Slim (N : Nat) (t : Target) : Prop := ∀ v, t.place = .tmp v → v.Slim N

/-- Nothing in memory is longer than `N`. -/
structure Sized (N : Nat) (s : MSt) : Prop where
  mem : s.mem.Within N
  typed : ∀ o a t, s.typed o = some (a, t) → t.Slim N
  heap : s.d.heap.Small N

/-- `x` keeps it so. -/
def Modest (N : Nat) (x : M α) (Q : α → Prop) : Prop :=
  ∀ s, Sized N s → Sized N (x s).2 ∧ ∀ a, (x s).1 = .ok a → Q a

namespace Slim
variable {N : Nat}

theorem zero : MVal.zero.Slim N := fun h => by cases h
theorem ptr {l : Spot} : (MVal.ptr l).Slim N := fun h => by cases h
theorem map {m : Nat} : (MVal.map m).Slim N := fun h => by cases h
theorem multi {vs : List MVal} (h : ∀ v ∈ vs, v.Slim N) : (MVal.multi vs).Slim N := by
  intro hn
  cases hn with
  | multi h1 h2 => exact h _ h1 h2
theorem any {ty : Ty} {v : MVal} (h : v.Slim N) : (MVal.any ty v).Slim N := by
  intro hn
  cases hn with
  | any h1 => exact h h1
theorem ofAny {ty : Ty} {v : MVal} (h : (MVal.any ty v).Slim N) : v.Slim N := fun hn => h (.any hn)
theorem slice {l : Spot} {off n : Nat} (h : n ≤ N) : (MVal.slice l off n n).Slim N := by
  intro hn
  cases hn with
  | slice h1 => omega
theorem str {s : Bytes} (h : s.length ≤ N) : (MVal.str s).Slim N := by
  intro hn
  cases hn with
  | str h1 => omega
theorem data {s : Bytes} (h : s.length ≤ N) : (MVal.opaque s).Slim N := by
  intro hn
  cases hn
  omega
theorem iface {v : Val} (h : v.Small N) : (MVal.iface v).Slim N := by
  intro hn
  cases hn with
  | ifaceStr h1 => exact absurd h1 (Nat.not_lt.2 h)
  | ifaceBin h1 => exact absurd h1 (Nat.not_lt.2 h)

theorem parts {v : MVal} (h : v.Slim N) (n : Nat) : ∀ w ∈ v.parts n, w.Slim N := by
  intro w hw hk
  unfold MVal.parts at hw
  split at hw
  · next vs =>
    obtain ⟨i, -, rfl⟩ := List.mem_map.1 hw
    rw [List.getD_eq_getElem?_getD] at hk
    cases hi : vs[i]? with
    | none => rw [hi] at hk; cases hk
    | some x =>
      rw [hi] at hk
      exact h (.multi (List.mem_of_getElem? hi) hk)
  · rw [(List.mem_replicate.1 hw).2] at hk
    cases hk

theorem part {v : MVal} (h : v.Slim N) (i n : Nat) : ((v.parts n).getD i .zero).Slim N := by
  rw [List.getD_eq_getElem?_getD]
  cases hi : (v.parts n)[i]? with
  | none => exact Slim.zero
  | some x => exact Slim.parts h n x (List.mem_of_getElem? hi)

theorem get {p : List (Nat × Nat)} : ∀ {v : MVal}, v.Slim N → (v.get p).Slim N := by
  induction p with
  | nil => intro v h; exact h
  | cons a p ih => intro v h; exact ih (Slim.part h _ _)

theorem put {p : List (Nat × Nat)} {w : MVal} (hw : w.Slim N) : ∀ {v : MVal}, v.Slim N → (v.put p w).Slim N := by
  induction p with
  | nil => intro v h; exact hw
  | cons a p ih =>
    intro v h
    refine Slim.multi fun x hx => ?_
    rcases List.mem_or_eq_of_mem_set hx with h1 | h1
    · exact Slim.parts h _ x h1
    · rw [h1]; exact ih (Slim.part h _ _)

theorem bytes (s : Bytes) : ∀ v ∈ s.map MVal.ofByte, v.Slim N := by
  intro v hv
  obtain ⟨b, -, rfl⟩ := List.mem_map.1 hv
  intro hn
  cases hn

theorem overlay {vs : List MVal} (h : ∀ v ∈ vs, v.Slim N) (a b : Nat) (s : Bytes) :
    (MVal.multi (overlayMem vs a b s)).Slim N := by
  refine Slim.multi fun v hv => ?_
  unfold overlayMem at hv
  rcases List.mem_append.1 hv with hv | hv
  · rcases List.mem_append.1 hv with hv | hv
    · exact h v (List.mem_of_mem_take hv)
    · exact bytes _ v hv
  · exact h v (List.mem_of_mem_drop hv)

theorem var (ty : Ty) (l : Spot) (r : Bool) : Target.Slim N ⟨ty, .var l, r⟩ := fun _ h => by cases h

theorem partOf {t : Target} (ht : t.Slim N) (i n : Nat) (ty : Ty) (x : Bool) : (t.part i n ty x).Slim N := by
  intro v hv
  unfold Target.part at hv
  cases hp : t.place with
  | var l => rw [hp] at hv; cases hv
  | tmp w => rw [hp] at hv; cases hv; exact Slim.part (ht w hp) i n

end Slim

theorem mapInsert_mem {k : Bytes} {v : MVal} {es : List (Bytes × MVal)} {x : Bytes × MVal} (h : x ∈ mapInsert k v es) :
    x = (k, v) ∨ x ∈ es := by
  induction es with
  | nil => simp [mapInsert] at h; exact Or.inl h
  | cons e es ih =>
    obtain ⟨k', v'⟩ := e
    simp only [mapInsert] at h
    split at h
    · next hk =>
      rcases List.mem_cons.1 h with h | h
      · exact Or.inl (hk ▸ h)
      · exact Or.inr (List.mem_cons_of_mem _ h)
    · rcases List.mem_cons.1 h with h | h
      · exact Or.inr (by rw [h]; exact List.mem_cons_self)
      · exact (ih h).imp_right (List.mem_cons_of_mem _)

section
variable {N : Nat}

theorem Sized.get {s : MSt} (h : Sized N s) (l : Spot) : (s.mem.get l).Slim N := Slim.get (h.mem.vars _)

theorem Sized.put {s : MSt} (h : Sized N s) (l : Spot) {v : MVal} (hv : v.Slim N) : Sized N { s with mem := s.mem.put l v } := by
  refine ⟨⟨?_, h.mem.maps⟩, h.typed, h.heap⟩
  intro b
  dsimp only [Mem.put]
  split
  · exact Slim.put hv (h.mem.vars b)
  · exact h.mem.vars b

theorem Sized.new {s : MSt} (h : Sized N s) {v : MVal} (hv : v.Slim N) : Sized N { s with mem := s.mem.new v } := by
  refine ⟨⟨?_, h.mem.maps⟩, h.typed, h.heap⟩
  intro b
  dsimp only [Mem.new]
  split
  · exact hv
  · exact h.mem.vars b

theorem Sized.newMap {s : MSt} (h : Sized N s) : Sized N { s with mem := s.mem.newMap } := by
  refine ⟨⟨h.mem.vars, ?_⟩, h.typed, h.heap⟩
  intro b k v hk
  dsimp only [Mem.newMap] at hk
  split at hk
  · cases hk
  · exact h.mem.maps b k v hk

theorem Sized.insert {s : MSt} (h : Sized N s) (m : Nat) {k : Bytes} {v : MVal} (hk : k.length ≤ N) (hv : v.Slim N) :
    Sized N { s with mem := s.mem.insert m k v } := by
  refine ⟨⟨h.mem.vars, ?_⟩, h.typed, h.heap⟩
  intro b k' v' hm
  dsimp only [Mem.insert] at hm
  split at hm
  · rcases mapInsert_mem hm with h1 | h1
    · cases h1; exact ⟨hk, hv⟩
    · exact h.mem.maps b k' v' h1
  · exact h.mem.maps b k' v' hm

end

namespace Modest
variable {N : Nat}

theorem pure {a : α} {Q : α → Prop} (h : Q a) : Modest N (Pure.pure a : M α) Q := fun s hs => ⟨hs, fun b hb => by cases hb; exact h⟩
theorem fail {Q : α → Prop} (e : Exn) : Modest N (M.fail e : M α) Q := fun s hs => ⟨hs, fun b hb => by cases hb⟩
theorem err {Q : α → Prop} (e : Err) : Modest N (M.err e : M α) Q := fail _

theorem bind {x : M α} {f : α → M β} {P : α → Prop} {Q : β → Prop} (hx : Modest N x P)
    (hf : ∀ a, P a → Modest N (f a) Q) : Modest N (x >>= f) Q := by
  intro s hs
  obtain ⟨h1, h2⟩ := hx s hs
  rw [M.bind_apply]
  rcases hr : x s with ⟨r, s'⟩
  rw [hr] at h1 h2
  cases r with
  | ok a => exact hf a (h2 a rfl) s' h1
  | error e => exact ⟨h1, fun b hb => by cases hb⟩

theorem bind' {x : M α} {f : α → M β} {Q : β → Prop} (hx : Modest N x fun _ => True)
    (hf : ∀ a, Modest N (f a) Q) : Modest N (x >>= f) Q := bind hx fun a _ => hf a

theorem failIf {c : Prop} [Decidable c] (e : Exn) : Modest N (M.failIf c e) fun _ => ¬ c := by
  unfold M.failIf
  split
  · exact fail e
  · next h => exact pure h

/-- A check of which the result is not needed. -/
theorem check {c : Prop} [Decidable c] (e : Exn) : Modest N (M.failIf c e) fun _ => True :=
  fun s hs => ⟨(failIf e s hs).1, fun _ _ => trivial⟩

theorem ite {c : Prop} [Decidable c] {x y : M α} {Q : α → Prop} (h1 : Modest N x Q) (h2 : Modest N y Q) :
    Modest N (if c then x else y) Q := by
  split
  · exact h1
  · exact h2

theorem lift {x : D α} {Q : α → Prop} (h : Tame N x Q) : Modest N (M.lift x) Q := by
  intro s hs
  obtain ⟨h1, h2⟩ := h s.d hs.heap
  unfold M.lift
  rcases hr : x s.d with ⟨r, d⟩
  rw [hr] at h1 h2
  exact ⟨⟨hs.mem, hs.typed, h1⟩, h2⟩

theorem get {f : MSt → M α} {Q : α → Prop} (h : ∀ s, Sized N s → Modest N (f s) Q) : Modest N (M.get >>= f) Q :=
  fun s hs => h s hs s hs

theorem read {t : Target} (ht : t.Slim N) : Modest N t.read fun v => v.Slim N := by
  intro s hs
  unfold Target.read
  cases hp : t.place with
  | var l => exact ⟨hs, fun a ha => by cases ha; exact hs.get l⟩
  | tmp v => exact ⟨hs, fun a ha => by cases ha; exact ht v hp⟩

theorem write (t : Target) {v : MVal} (hv : v.Slim N) : Modest N (t.write v) fun _ => True := by
  unfold Target.write
  split
  · exact ite (fail _) fun s hs => ⟨hs.put _ hv, fun _ _ => trivial⟩
  · exact fail _

theorem newVar {v : MVal} (hv : v.Slim N) : Modest N (Sereal.newVar v) fun _ => True := fun s hs => ⟨hs.new hv, fun _ _ => trivial⟩
theorem newMap : Modest N Sereal.newMap fun _ => True := fun s hs => ⟨hs.newMap, fun _ _ => trivial⟩

theorem makeSlice (t : Target) {vs : List MVal} (hv : ∀ v ∈ vs, v.Slim N) (hn : vs.length ≤ N) :
    Modest N (t.makeSlice vs) fun _ => True :=
  bind' (newVar (Slim.multi hv)) fun _ => write t (Slim.slice hn)

theorem setInt (t : Target) (i : Int64) : Modest N (t.setInt i) fun _ => True := by
  unfold Target.setInt; split
  · exact write t fun h => by cases h
  · exact write t fun h => by cases h
  · exact fail _

theorem setFloat (t : Target) (tc : TCfg) (u : UInt64) : Modest N (t.setFloat tc u) fun _ => True := by
  unfold Target.setFloat; split
  · exact write t fun h => by cases h
  · exact write t fun h => by cases h
  · exact fail _

theorem setBool (t : Target) (b : Bool) : Modest N (t.setBool b) fun _ => True := by
  unfold Target.setBool; split
  · exact write t fun h => by cases h
  · exact fail _

theorem setString (t : Target) {s : Bytes} (h : s.length ≤ N) : Modest N (t.setString s) fun _ => True := by
  unfold Target.setString; split
  · exact write t (Slim.str h)
  · exact fail _

theorem setBinary {t : Target} (ht : t.Slim N) {s : Bytes} (h : s.length ≤ N) : Modest N (t.setBinary s) fun _ => True := by
  unfold Target.setBinary; split
  · refine bind (read ht) fun v hv => ?_
    split
    · refine bind' (check _) fun _ => ?_
      exact fun st hs => ⟨hs.put _ (Slim.overlay (Slim.parts (hs.get _) _) _ _ _), fun _ _ => trivial⟩
    · exact makeSlice t (Slim.bytes _) (by rw [List.length_map]; exact h)
  · exact fail _
  · exact bind (read ht) fun v hv => write t (Slim.overlay (Slim.parts hv _) _ _ _)
  · exact fail _
  · exact write t (Slim.str h)
  · exact fail _

theorem setPtr (t : Target) (b : Bool) (a : Addr) : Modest N (t.setPerl (.ptr b a)) fun _ => True := by
  unfold Target.setPerl; split
  · exact write t (Slim.iface trivial)
  · exact fail _

theorem undef (cfg : DCfg) (c : Bool) (t : Target) : Modest N (undefMem cfg c t) fun _ => True := by
  unfold undefMem
  split
  · exact setPtr t _ _
  · split
    · exact bind' (lift (Tame.allocVar trivial)) fun _ => setPtr t _ _
    · split
      · exact write t Slim.zero
      · exact write t Slim.zero
      · exact write t Slim.zero
      · exact pure trivial

theorem assign (t : Target) (ty : Ty) {v : MVal} (hv : v.Slim N) : Modest N (t.assign ty v) fun _ => True := by
  unfold Target.assign
  split
  · exact write t hv
  · split
    · exact write t (Slim.any hv)
    · exact fail _

theorem assignAny (t : Target) {v : Val} (hv : (MVal.iface v).Slim N) : Modest N (t.assignAny v) fun _ => True := by
  unfold Target.assignAny
  split
  · exact fail _
  · split
    · exact write t hv
    · split
      · next h =>
        refine assign t _ ?_
        unfold Val.typed at h
        split at h <;> cases h <;> first
          | exact Slim.str (Nat.not_lt.1 fun hn => hv (.ifaceStr hn))
          | exact fun hn => by cases hn
      · split
        · exact fail _
        · exact fail _

theorem fromAny (cfg : DCfg) (r : Bool) (t : Target) {v : MVal} (hv : v.Slim N) (ro : Bool) :
    Modest N (t.fromAny cfg r v ro) fun _ => True := by
  unfold Target.fromAny
  refine bind' (check _) fun _ => bind' (check _) fun _ => ?_
  split
  · split
    · exact bind (read (Slim.var _ _ _)) fun _ hw => assign t _ hw
    · refine bind (lift (Tame.readLoc _)) fun w hw => ?_
      split
      · refine write t ?_
        split
        · exact Slim.zero
        · exact Slim.iface hw
      · exact fail _
    · exact bind (lift (Tame.readLoc _)) fun w hw => assignAny t (Slim.iface hw)
    · exact fail _
  · split
    · exact assign t _ (Slim.ofAny hv)
    · exact assignAny t hv
    · exact fail _

theorem call (f : Bytes → Option Nat) {data : Bytes} (h : data.length ≤ N) (l : Spot) :
    Modest N (callUnmarshal f data l) fun _ => True := by
  unfold callUnmarshal
  split
  · exact err _
  · exact fun s hs => ⟨hs.put l (Slim.data h), fun _ _ => trivial⟩

theorem deref {t : Target} (ht : t.Slim N) (e : Ty) : Modest N (t.deref e) fun t' => t'.Slim N := by
  unfold Target.deref
  refine bind (read ht) fun v hv => ?_
  split
  · exact pure (Slim.var _ _ _)
  · exact bind' (newVar Slim.zero) fun l => bind' (write t Slim.ptr) fun _ => pure (Slim.var _ _ _)

theorem unmarshal (tc : TCfg) {t : Target} (ht : t.Slim N) {data : Bytes} (h : data.length ≤ N) :
    Modest N (unmarshalMem tc t data) fun _ => True := by
  have no : ∀ m, Modest N (M.failIf t.unaddressable (.panic m) >>= fun _ => Pure.pure false : M Bool) fun _ => True :=
    fun m => bind' (check _) fun _ => pure trivial
  have yes : ∀ f (l : Spot), Modest N (callUnmarshal f data l >>= fun _ => Pure.pure true : M Bool) fun _ => True :=
    fun f l => bind' (call _ h _) fun _ => pure trivial
  unfold unmarshalMem
  split
  · refine bind (deref ht _) fun t' ht' => bind' (check _) fun _ => ?_
    split
    · split
      · exact yes _ _
      · exact no _
    · exact no _
  · refine bind' (check _) fun _ => ?_
    split
    · exact yes _ _
    · exact pure trivial
  · refine bind' (check _) fun _ => bind (read ht) fun v hv => ?_
    split
    · split
      · exact yes _ _
      · exact fail _
      · exact no _
    · exact fail _
    · exact fail _
    · exact no _
  · exact no _

theorem lookup {t : Target} (ht : t.Slim N) (key : Bytes) : Modest N (t.lookup key) fun r => ∀ v, r = some v → v.Slim N := by
  unfold Target.lookup
  refine bind (read ht) fun v hv => ?_
  cases v with
  | map m =>
    intro s hs
    refine ⟨hs, fun r hr w hw => ?_⟩
    have hr : mapLookup key (s.mem.maps m) = r := by injection hr
    rw [hw] at hr
    exact (hs.mem.maps m key w (mapLookup_mem hr)).2
  | _ => exact pure fun _ h => by cases h

theorem insert {t : Target} (ht : t.Slim N) {key : Bytes} (hk : key.length ≤ N) {v : MVal} (hv : v.Slim N) :
    Modest N (t.insert key v) fun _ => True := by
  unfold Target.insert
  refine bind' (check _) fun _ => bind (read ht) fun w hw => ?_
  cases w with
  | map m => exact fun s hs => ⟨hs.insert m hk hv, fun _ _ => trivial⟩
  | _ => exact fail _

end Modest

/-- Recursive calls keep it so. -/
def ModestRec (N : Nat) (rec : MRec) : Prop := ∀ i t, t.Slim N → Modest N (rec i t) fun _ => True

theorem Tame.fresh (cfg : DCfg) {buf : Bytes} {P : Nat} (hP : buf.length ≤ P) (i : Nat) :
    Tame P (decodeFresh cfg buf i) fun r => r.2.Small P := by
  unfold decodeFresh
  exact Tame.bind' (Tame.allocVar trivial) fun _ => Tame.bind' (decode_tame cfg _ hP _ _) fun _ =>
    Tame.bind (Tame.readLoc _) fun _ hv => Tame.pure hv

theorem Tame.checkHash (buf : Bytes) (i : Nat) (ln : Int) {P : Nat} : Tame P (Sereal.checkHash buf i ln) fun _ => True := by
  unfold Sereal.checkHash
  exact Tame.bind Tame.failIf fun _ _ => Tame.mono Tame.failIf fun _ _ => trivial

theorem Tame.regexp {buf : Bytes} {P : Nat} (hP : buf.length ≤ P) (i : Nat) : Tame P (decodeRegexp buf i) fun _ => True := by
  unfold decodeRegexp
  exact Tame.bind (Tame.stringish hP _) fun _ _ => Tame.bind (Tame.stringish hP _) fun _ _ => Tame.pure trivial

namespace Modest
section
variable {N : Nat} {cfg : DCfg} {tc : TCfg} {buf : Bytes} {rec : MRec} (hN : buf.length ≤ N)
include hN

theorem elems (hrec : ModestRec N rec) {t : Target} (ht : t.Slim N) (len n k i : Nat) :
    Modest N (elemsMem cfg buf rec t len n k i) fun _ => True := by
  induction n generalizing k i with
  | zero => exact pure trivial
  | succ n ih =>
    unfold elemsMem
    refine ite ?_ (bind (lift (Tame.fresh cfg hN _)) fun _ _ => ih _ _)
    split
    · refine bind (read ht) fun v hv => ?_
      split
      · exact bind' (check _) fun _ => bind' (hrec _ _ (Slim.var _ _ _)) fun _ => ih _ _
      · exact fail _
    · exact bind' (hrec _ _ (Slim.partOf ht _ _ _ _)) fun _ => ih _ _
    · exact fail _

theorem array (hrec : ModestRec N rec) {t : Target} (ht : t.Slim N) (i : Nat) (ln : Int) :
    Modest N (arrayMem cfg buf rec i ln t) fun _ => True := by
  unfold arrayMem
  refine bind' (check _) fun _ => bind (failIf _) fun _ hln => ?_
  split
  · refine bind (read ht) fun v hv => ?_
    have rest : Modest N (t.read >>= fun v => elemsMem cfg buf rec t v.len ln.toNat 0 i) fun _ => True :=
      bind (read ht) fun _ _ => elems hN hrec ht _ _ _ _
    refine ite ?_ rest
    refine bind' (makeSlice t ?_ (by rw [List.length_replicate]; omega)) fun _ => rest
    intro v hv
    rw [(List.mem_replicate.1 hv).2]
    exact Slim.zero
  · exact elems hN hrec ht _ _ _ _
  · exact err _

theorem entries (hrec : ModestRec N rec) (e : Ty) {t : Target} (ht : t.Slim N) (n i : Nat) :
    Modest N (entriesMem buf rec e t n i) fun _ => True := by
  induction n generalizing i with
  | zero => exact pure trivial
  | succ n ih =>
    unfold entriesMem
    refine bind (lift (Tame.stringish hN _)) fun r hr => bind (lookup ht _) fun o ho => ?_
    split
    · exact bind' (hrec _ _ fun v hv => by cases hv; exact ho _ rfl) fun _ => ih _
    · exact bind' (newVar Slim.zero) fun l => bind' (hrec _ _ (Slim.var _ _ _)) fun _ => bind (read (Slim.var _ _ _)) fun v hv =>
        bind' (insert ht hr hv) fun _ => ih _

theorem fields (hrec : ModestRec N rec) (fs : List TField) {t : Target} (ht : t.Slim N) (n i : Nat) :
    Modest N (fieldsMem cfg tc buf rec fs t n i) fun _ => True := by
  induction n generalizing i with
  | zero => exact pure trivial
  | succ n ih =>
    unfold fieldsMem
    refine bind (lift (Tame.stringish hN _)) fun r _ => ?_
    dsimp only
    split
    · split
      · exact bind' (hrec _ _ (Slim.partOf ht _ _ _ _)) fun _ => ih _
      · exact fail _
    · exact bind (lift (Tame.fresh cfg hN _)) fun _ _ => ih _

theorem hash (hrec : ModestRec N rec) (i n : Nat) (ty : Ty) : ∀ {t : Target}, t.Slim N →
    Modest N (hashMem cfg tc buf rec i n ty t) fun _ => True := by
  induction ty with
  | map e =>
    intro t ht
    unfold hashMem
    refine bind (read ht) fun v hv => ?_
    refine ite ?_ (entries hN hrec _ ht _ _)
    exact bind' newMap fun m => bind' (write t Slim.map) fun _ => entries hN hrec _ ht _ _
  | ptr e ih =>
    intro t ht
    unfold hashMem
    exact bind (deref ht _) fun t' ht' => ih ht'
  | strct id => intro t ht; unfold hashMem; exact fields hN hrec _ ht _ _
  | _ => intro t ht; unfold hashMem; exact err _

omit hN in
theorem refp (t : Target) (i : Nat) (b : Bool) : Modest N (refpMem cfg buf i b t) fun _ => True := by
  have any : ∀ v : Val, v.Small N → (if v = .nil then MVal.zero else .iface v).Slim N := by
    intro v hv
    split
    · exact Slim.zero
    · exact Slim.iface hv
  unfold refpMem
  refine bind' (lift (Tame.varintAt _ _)) fun r => bind' (check _) fun _ => get fun s hs => ?_
  split
  · exact ite (err _) (err _)
  · split
    · next a rv hrv =>
      have hr := hs.typed _ _ _ hrv
      refine ite (bind (read hr) fun v hv => ?_)
        (bind (lift (Tame.readLoc _)) fun v hv => bind' (fromAny _ _ t (any _ hv) _) fun _ => pure trivial)
      split
      · refine ite (bind' (fromAny _ _ t (hs.get _) _) fun _ => pure trivial) ?_
        exact bind' (check _) fun _ => bind' (assign t _ hv) fun _ => pure trivial
      · exact bind' (check _) fun _ => bind' (assign t _ hv) fun _ => pure trivial
    · exact bind (lift (Tame.readLoc _)) fun v hv => bind' (fromAny _ _ t (any _ hv) _) fun _ => pure trivial

theorem freeze {t : Target} (ht : t.Slim N) (i : Nat) (b : Bool) : Modest N (freezeMem cfg tc buf i t b) fun _ => True := by
  unfold freezeMem
  refine bind (lift (Tame.className hN _ _)) fun r _ => bind' (check _) fun _ => bind' (lift (Tame.byteAt _ _)) fun _ =>
    bind' (lift (Tame.byteAt _ _)) fun _ => bind' (check _) fun _ => bind (lift (Tame.fresh cfg hN _)) fun q _ => ?_
  dsimp only
  split
  · refine bind' (check _) fun _ => bind (lift (Tame.readLoc _)) fun w hw => ?_
    split
    · refine ite (bind' (lift (Tame.allocVar trivial)) fun _ => bind' (setPtr t _ _) fun _ => pure trivial) ?_
      refine bind' (unmarshal _ ht hw) fun u => ite (pure trivial) (bind (read ht) fun _ _ => ?_)
      exact ite (bind' (makeSlice t (Slim.bytes _) (by rw [List.length_map]; exact hw)) fun _ => pure trivial) (err _)
    · exact err _
  · exact err _

theorem checkedHash (hrec : ModestRec N rec) {t : Target} (ht : t.Slim N) (i : Nat) (ln : Int) :
    Modest N (checkedHashMem cfg tc buf rec i ln t) fun _ => True := by
  unfold checkedHashMem
  exact bind' (lift (Tame.checkHash _ _ _)) fun _ => hash hN hrec _ _ _ ht

omit hN in
theorem withCopy {x : M α} {Q : α → Prop} (hx : Modest N x Q) : Modest N (withCopyMem x) Q := by
  intro s hs
  obtain ⟨h1, h2⟩ := hx { s with d := { s.d with copyDepth := s.d.copyDepth + 1 } } ⟨hs.mem, hs.typed, hs.heap⟩
  unfold withCopyMem
  rcases hr : x { s with d := { s.d with copyDepth := s.d.copyDepth + 1 } } with ⟨r, s'⟩
  rw [hr] at h1 h2
  cases r with
  | ok a => exact ⟨⟨h1.mem, h1.typed, h1.heap⟩, fun b hb => h2 b hb⟩
  | error e =>
    cases e with
    | err e => exact ⟨⟨h1.mem, h1.typed, h1.heap⟩, fun b hb => by cases hb⟩
    | _ => exact ⟨h1, fun b hb => by cases hb⟩

theorem body (hrec : ModestRec N rec) {t : Target} (ht : t.Slim N) (c : TagC) (i tag : Nat) :
    Modest N (memC cfg tc buf rec c i t tag) fun _ => True := by
  have inner : ∀ (v : Val) (k : Nat), v.Small N → Modest N (do
        let a ← M.lift (allocVar v)
        t.setPerl (.ptr false a)
        M.lift (Sereal.decode cfg buf (fuelFor buf.length) k (.field a))) fun _ => True :=
    fun v k hv => bind' (lift (Tame.allocVar hv)) fun _ => bind' (setPtr t _ _) fun _ => lift (decode_tame _ _ hN _ _)
  have fin : ∀ {x : M Unit} (k : Nat), Modest N x (fun _ => True) → Modest N (x >>= fun _ => Pure.pure k) fun _ => True :=
    fun k h => bind' h fun _ => pure trivial
  have vi : ∀ k, Modest N (M.lift (varintAt buf k)) fun _ => True := fun k => lift (Tame.varintAt _ _)
  have bin : ∀ k ln, Modest N (M.lift (decodeBinary buf k ln)) fun r => r.1.length ≤ N := fun k ln => lift (Tame.binary hN _ _)
  cases c with
  | int n => exact fin _ (setInt t _)
  | varint => exact bind' (vi _) fun _ => fin _ (setInt t _)
  | zigzag => exact bind' (vi _) fun _ => fin _ (setInt t _)
  | float => exact bind' (lift (Tame.float _)) fun _ => fin _ (setFloat t _ _)
  | double => exact bind' (lift (Tame.double _)) fun _ => fin _ (setFloat t _ _)
  | true_ => exact fin _ (setBool t _)
  | false_ => exact fin _ (setBool t _)
  | binary => exact bind' (vi _) fun _ => bind (bin _ _) fun _ h => fin _ (setBinary ht h)
  | short n => exact bind (bin _ _) fun _ h => fin _ (setBinary ht h)
  | strUtf8 => exact bind' (vi _) fun _ => bind (bin _ _) fun _ h => fin _ (setString t h)
  | hash => exact bind' (vi _) fun _ => checkedHash hN hrec ht _ _
  | hashref n => exact checkedHash hN hrec ht _ _
  | array => exact bind' (vi _) fun _ => array hN hrec ht _ _
  | arrayref n => exact array hN hrec ht _ _
  | undef => exact fin _ (undef _ _ t)
  | cundef => exact fin _ (undef _ _ t)
  | copy =>
    exact get fun s _ => bind' (check _) fun _ => bind' (vi _) fun _ => bind' (check _) fun _ =>
      bind' (withCopy (hrec _ _ ht)) fun _ => pure trivial
  | refn => exact hrec _ _ ht
  | refp => exact refp t _ _
  | alias => exact refp t _ _
  | weaken => exact ite (inner _ _ trivial) (hrec _ _ ht)
  | regexp => exact bind' (lift (Tame.regexp hN _)) fun _ => bind' (lift (Tame.allocVar trivial)) fun _ => fin _ (setPtr t _ _)
  | object => exact bind (lift (Tame.className hN _ _)) fun _ _ => ite (inner _ _ trivial) (hrec _ _ ht)
  | objectv => exact bind (lift (Tame.className hN _ _)) fun _ _ => ite (inner _ _ trivial) (hrec _ _ ht)
  | freeze => exact freeze hN ht _ _
  | freezev => exact freeze hN ht _ _
  | pad => exact err _
  | other => exact err _

omit hN in
theorem track {t : Target} (ht : t.Slim N) (i : Nat) : Modest N (trackMem i t) fun _ => True := by
  unfold trackMem
  refine bind' (lift (Tame.allocVar trivial)) fun a => bind' (lift (Tame.track _ _)) fun _ => fun s hs => ⟨⟨hs.mem, ?_, hs.heap⟩, fun _ _ => trivial⟩
  intro o b t' ho
  dsimp only at ho
  split at ho
  · cases ho; exact ht
  · exact hs.typed o b t' ho

end

/-- decodeViaReflection makes nothing longer than the buffer. -/
theorem decode {N : Nat} (cfg : DCfg) (tc : TCfg) {buf : Bytes} (hN : buf.length ≤ N) (f : Nat) : ModestRec N (decodeMem cfg tc buf f) := by
  induction f with
  | zero => intro i t ht; exact fail _
  | succ f ih =>
    intro i t ht
    unfold decodeMem
    refine bind' (check _) fun _ => bind (read ht) fun v hv => ite ?_ ?_
    · refine bind (lift (Tame.fresh cfg hN _)) fun r hr => ?_
      dsimp only
      exact ite (bind' (write t (Slim.iface hr)) fun _ => pure trivial) (pure trivial)
    · refine bind' (lift (Tame.lift _)) fun r => ?_
      dsimp only
      have rest : Modest N (tagMem cfg tc buf (decodeMem cfg tc buf f) (r.2 &&& ~~~ trackFlag) (r.1 + 1) t) fun _ => True := by
        rw [tagMem_eq _ _ _ _ _ _ _ (untracked_lt r.2)]
        exact body hN ih ht _ _ _
      exact ite (bind' (track ht _) fun _ => rest) rest

end Modest
end Sereal
