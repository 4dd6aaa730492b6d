import Verif.Spec.Unshared
import Verif.Spec.Typed
import Verif.Proof.Round
/-
Values in which every pointer is met once are written without references to other items.
-/
namespace Sereal

variable {c : ECfg} {inp : Heap} {base : Nat}

/-! ### Which entries the table of pointers gets -/

/-- Only addresses in `K` are added to the table of pointers. -/
def Only (K : Addr → Prop) {α : Type} (m : E α) : Prop :=
  ∀ s a s', m s = .ok (a, s') → ∀ κ, s'.ptrTable κ ≠ none → s.ptrTable κ ≠ none ∨ K κ

namespace Only
variable {K : Addr → Prop} {α β : Type}

theorem bind {m : E α} {f : α → E β} (h : Only K m) (hf : ∀ a, Only K (f a)) : Only K (m >>= f) := by
  intro s b s' he κ hk
  obtain ⟨a, s1, h1, h2⟩ := E.bind_ok.1 he
  rcases hf a s1 b s' h2 κ hk with h3 | h3
  · exact h s a s1 h1 κ h3
  · exact .inr h3

theorem pure (a : α) : Only K (Pure.pure a : E α) := by
  intro s b s' he κ hk
  obtain ⟨_, rfl⟩ := E.pure_ok.1 he
  exact .inl hk

theorem fail (e : Exn) : Only K (E.fail e : E α) := by
  intro s b s' he; cases he

theorem emit (w : Bytes) : Only K (Sereal.emit w) := by
  intro s b s' he κ hk
  rw [emit_ok.1 he] at hk
  exact .inl hk

theorem get : Only K E.get := by
  intro s b s' he κ hk
  obtain ⟨rfl, rfl⟩ := E.get_ok.1 he
  exact .inl hk

theorem rememberStr (k : Bytes) : Only K (Sereal.rememberStr k) := by
  intro s b s' he κ hk
  unfold Sereal.rememberStr at he; cases he
  exact .inl hk

theorem rangeKeys (ks : List Bytes) : Only K (Sereal.rangeKeys c ks) := by
  intro s b s' he κ hk
  unfold Sereal.rangeKeys at he; cases he
  exact .inl hk

theorem setTrackFlag (o : Nat) : Only K (Sereal.setTrackFlag o) := by
  intro s b s' he κ hk
  unfold Sereal.setTrackFlag at he
  split at he
  · cases he; exact .inl hk
  · cases he

theorem rememberPtr {a : Addr} {o : Nat} (ha : K a) : Only K (Sereal.rememberPtr a o) := by
  intro s b s' he κ hk
  rw [rememberPtr_ok he] at hk
  by_cases h : κ = a
  · exact .inr (h ▸ ha)
  · dsimp only at hk
    rw [if_neg h] at hk
    exact .inl hk

theorem string (k : Bytes) (b : Bool) : Only K (encodeString c k b) := by
  unfold encodeString
  split
  · refine get.bind (fun st => ?_)
    split
    · exact emit _
    · exact (rememberStr _).bind (fun _ => emit _)
  · exact emit _

theorem bytes (k : Bytes) (b : Bool) : Only K (encodeBytes c k b) := by
  unfold encodeBytes
  split
  · refine get.bind (fun st => ?_)
    split
    · exact emit _
    · exact (rememberStr _).bind (fun _ => emit _)
  · exact emit _

theorem mono {K' : Addr → Prop} {m : E α} (h : Only K m) (hk : ∀ κ, K κ → K' κ) : Only K' m :=
  fun s a s' he κ hn => (h s a s' he κ hn).imp_right (hk κ)

theorem elems {rec : Val → E Unit} {vs : List Val} (h : ∀ v ∈ vs, Only K (rec v)) : Only K (encodeElems rec vs) := by
  induction vs with
  | nil => exact pure ()
  | cons v vs ih => exact (h v (by simp)).bind (fun _ => ih (fun v hv => h v (by simp [hv])))

theorem pairs {key : Bytes → E Unit} {rec : Val → E Unit} {kvs : List (Bytes × Val)} {ks : List Bytes}
    (hk : ∀ k, Only K (key k)) (h : ∀ k, Only K (rec ((mapLookup k kvs).getD .nil))) :
    Only K (encodePairs key rec kvs ks) := by
  induction ks with
  | nil => exact pure ()
  | cons k ks ih => exact (hk k).bind (fun _ => (h k).bind (fun _ => ih))

theorem fields {rec : Val → E Unit} {tags : List (Bytes × Field)} {ks : List Bytes}
    (h : ∀ k f, mapLookup k tags = some f → Only K (rec f.val)) : Only K (encodeFields c rec tags ks) := by
  induction ks with
  | nil => exact pure ()
  | cons k ks ih =>
    refine (string k true).bind (fun _ => ?_)
    cases hm : mapLookup k tags with
    | none => exact (pure ()).bind (fun _ => ih)
    | some f =>
      dsimp only
      split
      · exact (fail _).bind (fun _ => ih)
      · exact (h k f hm).bind (fun _ => ih)

theorem arr {rec : Val → E Unit} {vs : List Val} {rn : Bool} (h : ∀ v ∈ vs, Only K (rec v)) :
    Only K (encodeArr c rec vs rn) := by
  unfold encodeArr
  split
  · exact (emit _).bind (fun _ => (emit _).bind (fun _ => elems h))
  · exact (emit _).bind (fun _ => elems h)

theorem mp {rec : Val → E Unit} {kvs : List (Bytes × Val)} {rn b : Bool}
    (h : ∀ k, Only K (rec ((mapLookup k kvs).getD .nil))) : Only K (encodeMp c rec kvs rn b) := by
  unfold encodeMp
  have : Only K (Sereal.emit (typeHASH :: varint kvs.length) >>= fun _ => Sereal.rangeKeys c (kvs.map (·.1)) >>= fun ks =>
      encodePairs (fun k => encodeString c k b) rec kvs ks) :=
    (emit _).bind (fun _ => (rangeKeys _).bind (fun _ => pairs (fun k => string k b) h))
  split
  · exact (emit _).bind (fun _ => this)
  · exact this

theorem strct {rec : Val → E Unit} {name : Bytes} {fs : List Field}
    (h : ∀ k f, mapLookup k (structTags fs []) = some f → Only K (rec f.val)) : Only K (encodeStrct c rec name fs) := by
  unfold encodeStrct
  have : Only K (Sereal.emit (typeHASH :: varint (structTags fs []).length) >>= fun _ =>
      Sereal.rangeKeys c ((structTags fs []).map (·.1)) >>= fun ks => encodeFields c rec (structTags fs []) ks) :=
    (emit _).bind (fun _ => (rangeKeys _).bind (fun _ => fields h))
  refine (emit _).bind (fun _ => (bytes _ _).bind (fun _ => ?_))
  split
  · exact (emit _).bind (fun _ => this)
  · exact this

theorem json (s : Bytes) (b : Bool) : Only K (encodeJsonNumber c s b) := by
  unfold encodeJsonNumber
  split
  · exact emit _
  · exact string _ _
  · split
    · exact emit _
    · exact string _ _

end Only

theorem writesField_iff {fs : List Field} {k : Bytes} {f : Field} :
    mapLookup k (structTags fs []) = some f ↔ WritesField fs k f := by
  rw [structTags_eq, insertAll_lookup]
  unfold WritesField lastLookup
  simp [mapLookup]

theorem PtrKey.nil {κ : Addr} : ¬ PtrKey c inp .nil κ := by
  intro h
  cases h with
  | here h => rcases h with h | ⟨h, _⟩ <;> cases h
  | deep h =>
    rcases h with h | h | ⟨a, h, _⟩
    · cases h
    · cases h
    · rcases h with h | ⟨h, _⟩ <;> cases h

theorem perl_iff {v : Val} : isPerlStruct v = true ↔ PerlThing v := by
  cases v <;> simp [PerlThing, isPerlStruct]

theorem ordPtr_of {iface : Bool} {a : Addr} (h : ¬ (!iface && isPerlStruct (inp.cellAt a)) = true) :
    OrdPtr inp (.ptr iface a) a := by
  cases iface with
  | true => exact .inl rfl
  | false => exact .inr ⟨rfl, fun hp => h (by simpa using perl_iff.2 hp)⟩

theorem encodeVal_only {rec : Option (Val → Bool → Bool → E Unit)}
    (hrec : ∀ r, rec = some r → ∀ v ik rn, Only (PtrKey c inp v) (r v ik rn)) (v : Val) :
    ∀ ik rn, Only (PtrKey c inp v) (encodeVal c inp rec v ik rn) := by
  induction v with
  | nil | bool | int | uint | f32 | f64 | undef | nbool | nint | nf32 | nf64 => intro ik rn; exact .emit _
  | thawed | nuint | unsupported => intro ik rn; exact .fail _
  | jnum s => intro ik rn; exact .json s ik
  | str s => intro ik rn; exact .string s ik
  | nstr s => intro ik rn; exact .string s ik
  | bin s => intro ik rn; exact .bytes s ik
  | regexp p m => intro ik rn; exact (Only.emit _).bind (fun _ => (Only.bytes _ _).bind (fun _ => .bytes _ _))
  | slice p n =>
    intro ik rn
    unfold encodeVal
    cases rec with
    | none => exact .fail _
    | some r =>
      refine .arr (fun v hv => ?_)
      obtain ⟨i, hi, rfl⟩ := List.mem_map.1 hv
      exact (hrec r rfl _ _ _).mono (fun κ hk => .deep (.inl (.elem (List.mem_range.1 hi))) hk)
  | rslice p n =>
    intro ik rn
    unfold encodeVal
    cases rec with
    | none => exact .fail _
    | some r =>
      refine .arr (fun v hv => ?_)
      obtain ⟨i, hi, rfl⟩ := List.mem_map.1 hv
      exact (hrec r rfl _ _ _).mono (fun κ hk => .deep (.inl (.relem (List.mem_range.1 hi))) hk)
  | smap m =>
    intro ik rn
    unfold encodeVal
    cases rec with
    | none => exact .fail _
    | some r =>
      refine .mp (fun k => (hrec r rfl _ _ _).mono (fun κ hk => ?_))
      cases hm : mapLookup k (inp.mapAt m) with
      | none => rw [hm] at hk; exact absurd hk PtrKey.nil
      | some v => rw [hm] at hk; exact .deep (.inl (.entry hm)) hk
  | rmap m =>
    intro ik rn
    unfold encodeVal
    cases rec with
    | none => exact .fail _
    | some r =>
      refine .mp (fun k => (hrec r rfl _ _ _).mono (fun κ hk => ?_))
      cases hm : mapLookup k (inp.mapAt m) with
      | none => rw [hm] at hk; exact absurd hk PtrKey.nil
      | some v => rw [hm] at hk; exact .deep (.inl (.rentry hm)) hk
  | strct name a =>
    intro ik rn
    unfold encodeVal
    cases rec with
    | none => exact .fail _
    | some r =>
      exact .strct (fun k f hf => (hrec r rfl _ _ _).mono (fun κ hk =>
        .deep (.inl (.field (writesField_iff.1 hf))) hk))
  | frozen cls d =>
    intro ik rn
    unfold encodeVal
    cases rec with
    | none => exact .fail _
    | some r =>
      refine .strct (fun k f hf => (hrec r rfl _ _ _).mono (fun κ hk => ?_))
      have hf := writesField_iff.1 hf
      have hmem := lastLookup_mem hf
      simp only [List.filterMap_cons, effName, List.filterMap_nil] at hmem
      simp at hmem
      rcases hmem with ⟨_, rfl⟩ | ⟨_, rfl⟩
      · exact .deep (.inl .cls) hk
      · exact .deep (.inl .data) hk
  | obj cls r ih =>
    intro ik rn
    exact (Only.emit _).bind (fun _ => (Only.bytes _ _).bind (fun _ =>
      (ih _ _).mono (fun κ hk => .deep (.inr (.inl .obj)) hk)))
  | weak r ih =>
    intro ik rn
    exact (Only.emit _).bind (fun _ => (ih _ _).mono (fun κ hk => .deep (.inr (.inl .weak)) hk))
  | marshaler cls res u ih =>
    intro ik rn
    unfold encodeVal
    by_cases hd : c.disableFreeze = true
    · rw [if_pos hd]
      exact (ih _ _).mono (fun κ hk => .deep (.inr (.inl (.under hd))) hk)
    · rw [if_neg hd]
      cases res with
      | error n => exact .fail _
      | ok d =>
        exact (Only.emit _).bind (fun _ => (Only.string _ _).bind (fun _ => (Only.emit _).bind (fun _ =>
          (Only.emit _).bind (fun _ => .bytes _ _))))
  | nilptr =>
    intro ik rn
    unfold encodeVal
    cases rec with
    | none => exact .fail _
    | some r => exact .emit _
  | ptr iface a =>
    intro ik rn
    unfold encodeVal
    cases rec with
    | none => exact .fail _
    | some r =>
      dsimp only
      unfold encodePtr
      dsimp only
      split
      · rename_i hp
        simp only [Bool.and_eq_true, Bool.not_eq_true'] at hp
        rw [hp.1]
        exact (hrec r rfl _ _ _).mono (fun κ hk => .deep (.inl (.perl (perl_iff.1 hp.2))) hk)
      · rename_i hp
        have ho := ordPtr_of hp
        cases hg : getPointer c inp iface a with
        | error e => exact .fail _
        | ok p =>
          dsimp only
          refine Only.get.bind (fun st => ?_)
          split
          · exact (Only.emit _).bind (fun _ => .setTrackFlag _)
          · refine (Only.emit _).bind (fun _ => (Only.rememberPtr (.here ho (.inl rfl))).bind (fun _ =>
              Only.bind ((hrec r rfl _ _ _).mono (fun κ hk => .deep (.inr (.inr ⟨a, ho, rfl⟩)) hk)) (fun _ => ?_)))
            by_cases hp0 : p ≠ 0
            · rw [if_pos hp0]
              exact .rememberPtr (.here ho (.inr ⟨getPointer_ok hg, hp0⟩))
            · rw [if_neg hp0]
              exact .pure ()

theorem encode_only (d : Nat) (v : Val) (ik rn : Bool) : Only (PtrKey c inp v) (encode c inp d v ik rn) := by
  induction d using Nat.strongRecOn generalizing v ik rn with
  | _ d ih =>
    match d with
    | 0 => exact encodeVal_only (fun _ h => by cases h) v ik rn
    | 1 => exact encodeVal_only (fun _ h => by cases h) v ik rn
    | d + 2 =>
      exact encodeVal_only (fun r h => by
        cases h
        exact fun v ik rn => ih (d + 1) (by omega) v ik rn) v ik rn

/-! ### Writing what has not been met -/

/-- No pointer inside `v` has been met. -/
def Fresh (c : ECfg) (inp : Heap) (v : Val) (s : EState) : Prop := ∀ κ, PtrKey c inp v κ → s.ptrTable κ = none

open Classical in
/-- Write `v`, provided every pointer in it is met once, and has not been met. -/
noncomputable def once (c : ECfg) (inp : Heap) (v : Val) (m : E Unit) : E Unit := fun s =>
  if Unshared c inp v ∧ Fresh c inp v s then m s else .error .fuel

theorem once_ok {v : Val} {m : E Unit} {s s' : EState} :
    once c inp v m s = .ok ((), s') ↔ (Unshared c inp v ∧ Fresh c inp v s) ∧ m s = .ok ((), s') := by
  unfold once
  split
  · rename_i h; simp [h]
  · rename_i h; simp [h]

theorem Fresh.next {v w : Val} {m : E Unit} {s s' : EState} (hm : Only (PtrKey c inp v) m) (he : m s = .ok ((), s'))
    (hd : Unlinked c inp v w) (hf : Fresh c inp w s) : Fresh c inp w s' := by
  intro κ hk
  cases hn : s'.ptrTable κ with
  | none => rfl
  | some o =>
    rcases hm s () s' he κ (by rw [hn]; simp) with h | h
    · exact absurd (hf κ hk) h
    · exact absurd hk (hd κ h)

theorem Fresh.only {α : Type} {w : Val} {m : E α} {a : α} {s s' : EState} (hm : Only (fun _ => False) m)
    (he : m s = .ok (a, s')) (hf : Fresh c inp w s) : Fresh c inp w s' := by
  intro κ hk
  cases hn : s'.ptrTable κ with
  | none => rfl
  | some o =>
    rcases hm s a s' he κ (by rw [hn]; simp) with h | h
    · exact absurd (hf κ hk) h
    · exact h.elim

theorem Fresh.sub {v w : Val} {s : EState} (hl : Leads c inp v w) (hf : Fresh c inp v s) : Fresh c inp w s :=
  fun κ hk => hf κ (.deep hl hk)

theorem elems_once {rec : Val → E Unit} (ho : ∀ v, Only (PtrKey c inp v) (rec v)) {vs : List Val}
    (hu : ∀ v ∈ vs, Unshared c inp v) (hp : vs.Pairwise (Unlinked c inp)) {s s' : EState}
    (hf : ∀ v ∈ vs, Fresh c inp v s) (he : encodeElems rec vs s = .ok ((), s')) :
    encodeElems (fun v => once c inp v (rec v)) vs s = .ok ((), s') := by
  induction vs generalizing s with
  | nil => exact he
  | cons v vs ih =>
    obtain ⟨_, s1, h1, h2⟩ := E.bind_ok.1 he
    rw [List.pairwise_cons] at hp
    refine E.bind_ok.2 ⟨(), s1, once_ok.2 ⟨⟨hu v (by simp), hf v (by simp)⟩, h1⟩,
      ih (fun w hw => hu w (by simp [hw])) hp.2 (fun w hw => ?_) h2⟩
    exact (hf w (by simp [hw])).next (ho v) h1 (hp.1 w hw)

theorem pairs_once {key : Bytes → E Unit} {rec : Val → E Unit} (hk : ∀ k, Only (fun _ => False) (key k))
    (ho : ∀ v, Only (PtrKey c inp v) (rec v)) {kvs : List (Bytes × Val)} {ks : List Bytes} (hnd : ks.Nodup)
    (hu : ∀ k v, mapLookup k kvs = some v → Unshared c inp v)
    (hp : ∀ k k' v v', k ≠ k' → mapLookup k kvs = some v → mapLookup k' kvs = some v' → Unlinked c inp v v')
    {s s' : EState} (hf : ∀ k ∈ ks, ∀ v, mapLookup k kvs = some v → Fresh c inp v s)
    (he : encodePairs key rec kvs ks s = .ok ((), s')) :
    encodePairs key (fun v => once c inp v (rec v)) kvs ks s = .ok ((), s') := by
  induction ks generalizing s with
  | nil => exact he
  | cons k ks ih =>
    obtain ⟨_, s1, h1, he⟩ := E.bind_ok.1 he
    obtain ⟨_, s2, h2, h3⟩ := E.bind_ok.1 he
    rw [List.nodup_cons] at hnd
    refine E.bind_ok.2 ⟨(), s1, h1, E.bind_ok.2 ⟨(), s2, once_ok.2 ⟨?_, h2⟩, ih hnd.2 (fun k' hk' w hw => ?_) h3⟩⟩
    · cases hm : mapLookup k kvs with
      | none => exact ⟨.plain trivial, fun κ h => absurd h PtrKey.nil⟩
      | some v => exact ⟨hu k v hm, (hf k (by simp) v hm).only (hk k) h1⟩
    · refine ((hf k' (by simp [hk']) w hw).only (hk k) h1).next (ho _) h2 ?_
      cases hm : mapLookup k kvs with
      | none => exact fun κ h => absurd h PtrKey.nil
      | some v => exact hp k k' v w (fun e => hnd.1 (e ▸ hk')) hm hw

theorem fields_once {rec : Val → E Unit} (ho : ∀ v, Only (PtrKey c inp v) (rec v)) {tags : List (Bytes × Field)}
    {ks : List Bytes} (hnd : ks.Nodup) (hu : ∀ k f, mapLookup k tags = some f → Unshared c inp f.val)
    (hp : ∀ k k' f f', k ≠ k' → mapLookup k tags = some f → mapLookup k' tags = some f' → Unlinked c inp f.val f'.val)
    {s s' : EState} (hf : ∀ k ∈ ks, ∀ f, mapLookup k tags = some f → Fresh c inp f.val s)
    (he : encodeFields c rec tags ks s = .ok ((), s')) :
    encodeFields c (fun v => once c inp v (rec v)) tags ks s = .ok ((), s') := by
  induction ks generalizing s with
  | nil => exact he
  | cons k ks ih =>
    obtain ⟨_, s1, h1, he⟩ := E.bind_ok.1 he
    rw [List.nodup_cons] at hnd
    refine E.bind_ok.2 ⟨(), s1, h1, ?_⟩
    have hf1 : ∀ k' ∈ k :: ks, ∀ f, mapLookup k' tags = some f → Fresh c inp f.val s1 :=
      fun k' hk' f hm => (hf k' hk' f hm).only (.string k true) h1
    cases hm : mapLookup k tags with
    | none =>
      rw [hm] at he
      exact ih hnd.2 (fun k' hk' w hw => hf1 k' (by simp [hk']) w hw) he
    | some f =>
      rw [hm] at he
      dsimp only at he ⊢
      cases hex : f.exported with
      | false =>
        rw [hex] at he
        obtain ⟨_, _, h2, _⟩ := E.bind_ok.1 he
        cases h2
      | true =>
        rw [hex] at he
        obtain ⟨_, s2, h2, h3⟩ := E.bind_ok.1 he
        refine E.bind_ok.2 ⟨(), s2, once_ok.2 ⟨⟨hu k f hm, hf1 k (by simp) f hm⟩, h2⟩, ih hnd.2 (fun k' hk' w hw => ?_) h3⟩
        exact (hf1 k' (by simp [hk']) w hw).next (ho _) h2 (hp k k' f w (fun e => hnd.1 (e ▸ hk')) hm hw)

/-! ### What is written -/

/-- A tree `v` may be written as, without references to other items. -/
def Alone (c : ECfg) (inp : Heap) (rn : Bool) (v : Val) (t : Tree) : Prop := Written c inp rn v t ∧ NoRefs t

theorem EncItem.of_run {m m' : E Unit} {R : Tree → Prop} (h : EncItem c inp base m' R)
    (hm : ∀ s s', m s = .ok ((), s') → m' s = .ok ((), s')) : EncItem c inp base m R :=
  fun s s' g hi he => h s s' g hi (hm s s' he)

theorem NoRefs.refWrap {b : Bool} {t : Tree} (h : NoRefs t) : NoRefs (refWrap b t) := by
  unfold Sereal.refWrap; split
  · exact .ref h
  · exact h

theorem arr_once {rec : Val → E Unit} (ho : ∀ v, Only (PtrKey c inp v) (rec v)) {p n : Nat} {rn : Bool}
    (hu : ∀ i, i < n → Unshared c inp (inp.cellAt (p + i)))
    (hp : ∀ i j, i < j → j < n → Unlinked c inp (inp.cellAt (p + i)) (inp.cellAt (p + j))) {s s' : EState}
    (hf : ∀ i, i < n → Fresh c inp (inp.cellAt (p + i)) s)
    (he : encodeArr c rec (sliceVals inp p n) rn s = .ok ((), s')) :
    encodeArr c (fun v => once c inp v (rec v)) (sliceVals inp p n) rn s = .ok ((), s') := by
  have hmem : ∀ v ∈ sliceVals inp p n, ∃ i, i < n ∧ v = inp.cellAt (p + i) := by
    intro v hv
    obtain ⟨i, hi, rfl⟩ := List.mem_map.1 hv
    exact ⟨i, List.mem_range.1 hi, rfl⟩
  have hpw : (sliceVals inp p n).Pairwise (Unlinked c inp) := by
    rw [List.pairwise_iff_getElem]
    intro i j hi hj hij
    rw [sliceVals_length] at hi hj
    have h1 : (sliceVals inp p n)[i]'(by rw [sliceVals_length]; exact hi) = inp.cellAt (p + i) := by simp [sliceVals]
    have h2 : (sliceVals inp p n)[j]'(by rw [sliceVals_length]; exact hj) = inp.cellAt (p + j) := by simp [sliceVals]
    rw [h1, h2]
    exact hp i j hij hj
  have key : ∀ s, (∀ i, i < n → Fresh c inp (inp.cellAt (p + i)) s) →
      (emit (typeARRAY :: varint (sliceVals inp p n).length) >>= fun _ => encodeElems rec (sliceVals inp p n)) s = .ok ((), s') →
      (emit (typeARRAY :: varint (sliceVals inp p n).length) >>= fun _ =>
        encodeElems (fun v => once c inp v (rec v)) (sliceVals inp p n)) s = .ok ((), s') := by
    intro s hf he
    obtain ⟨_, s1, h1, h2⟩ := E.bind_ok.1 he
    refine E.bind_ok.2 ⟨(), s1, h1, elems_once ho (fun v hv => ?_) hpw (fun v hv => ?_) h2⟩
    · obtain ⟨i, hi, rfl⟩ := hmem v hv
      exact hu i hi
    · obtain ⟨i, hi, rfl⟩ := hmem v hv
      exact (hf i hi).only (.emit _) h1
  unfold encodeArr at he ⊢
  split at he
  · rename_i hb
    rw [if_pos hb]
    obtain ⟨_, s1, h1, h2⟩ := E.bind_ok.1 he
    exact E.bind_ok.2 ⟨(), s1, h1, key s1 (fun i hi => (hf i hi).only (.emit _) h1) h2⟩
  · rename_i hb
    rw [if_neg hb]
    exact key s hf he

theorem mp_once (hord : ∀ n ks, (c.ord n ks).Perm ks) {rec : Val → E Unit} (ho : ∀ v, Only (PtrKey c inp v) (rec v))
    {kvs : List (Bytes × Val)} {rn b : Bool} (hnd : (kvs.map Prod.fst).Nodup)
    (hu : ∀ k v, mapLookup k kvs = some v → Unshared c inp v)
    (hp : ∀ k k' v v', k ≠ k' → mapLookup k kvs = some v → mapLookup k' kvs = some v' → Unlinked c inp v v')
    {s s' : EState} (hf : ∀ k v, mapLookup k kvs = some v → Fresh c inp v s)
    (he : encodeMp c rec kvs rn b s = .ok ((), s')) :
    encodeMp c (fun v => once c inp v (rec v)) kvs rn b s = .ok ((), s') := by
  have key : ∀ s, (∀ k v, mapLookup k kvs = some v → Fresh c inp v s) →
      (emit (typeHASH :: varint kvs.length) >>= fun _ => rangeKeys c (kvs.map (·.1)) >>= fun ks =>
        encodePairs (fun k => encodeString c k b) rec kvs ks) s = .ok ((), s') →
      (emit (typeHASH :: varint kvs.length) >>= fun _ => rangeKeys c (kvs.map (·.1)) >>= fun ks =>
        encodePairs (fun k => encodeString c k b) (fun v => once c inp v (rec v)) kvs ks) s = .ok ((), s') := by
    intro s hf he
    obtain ⟨_, s1, h1, h2⟩ := E.bind_ok.1 he
    obtain ⟨ks, s2, h2, h3⟩ := E.bind_ok.1 h2
    have hks : ks = c.ord s1.visits (kvs.map (·.1)) := by unfold rangeKeys at h2; cases h2; rfl
    refine E.bind_ok.2 ⟨(), s1, h1, E.bind_ok.2 ⟨ks, s2, h2, pairs_once (fun k => .string k b) ho ?_ hu hp
      (fun k _ v hv => ((hf k v hv).only (.emit _) h1).only (.rangeKeys _) h2) h3⟩⟩
    rw [hks]
    exact (hord _ _).nodup_iff.2 hnd
  unfold encodeMp at he ⊢
  split at he
  · rename_i hb
    rw [if_pos hb]
    obtain ⟨_, s1, h1, h2⟩ := E.bind_ok.1 he
    exact E.bind_ok.2 ⟨(), s1, h1, key s1 (fun k v hv => (hf k v hv).only (.emit _) h1) h2⟩
  · rename_i hb
    rw [if_neg hb]
    exact key s hf he

theorem strct_once (hord : ∀ n ks, (c.ord n ks).Perm ks) {rec : Val → E Unit} (ho : ∀ v, Only (PtrKey c inp v) (rec v))
    {name : Bytes} {fs : List Field}
    (hu : ∀ k f, WritesField fs k f → Unshared c inp f.val)
    (hp : ∀ k k' f f', k ≠ k' → WritesField fs k f → WritesField fs k' f' → Unlinked c inp f.val f'.val)
    {s s' : EState} (hf : ∀ k f, WritesField fs k f → Fresh c inp f.val s)
    (he : encodeStrct c rec name fs s = .ok ((), s')) :
    encodeStrct c (fun v => once c inp v (rec v)) name fs s = .ok ((), s') := by
  have key : ∀ s, (∀ k f, WritesField fs k f → Fresh c inp f.val s) →
      (emit (typeHASH :: varint (structTags fs []).length) >>= fun _ => rangeKeys c ((structTags fs []).map (·.1)) >>= fun ks =>
        encodeFields c rec (structTags fs []) ks) s = .ok ((), s') →
      (emit (typeHASH :: varint (structTags fs []).length) >>= fun _ => rangeKeys c ((structTags fs []).map (·.1)) >>= fun ks =>
        encodeFields c (fun v => once c inp v (rec v)) (structTags fs []) ks) s = .ok ((), s') := by
    intro s hf he
    obtain ⟨_, s1, h1, h2⟩ := E.bind_ok.1 he
    obtain ⟨ks, s2, h2, h3⟩ := E.bind_ok.1 h2
    have hks : ks = c.ord s1.visits ((structTags fs []).map (·.1)) := by unfold rangeKeys at h2; cases h2; rfl
    refine E.bind_ok.2 ⟨(), s1, h1, E.bind_ok.2 ⟨ks, s2, h2, fields_once ho ?_ (fun k f h => hu k f (writesField_iff.1 h))
      (fun k k' f f' hne h h' => hp k k' f f' hne (writesField_iff.1 h) (writesField_iff.1 h'))
      (fun k _ f h => ((hf k f (writesField_iff.1 h)).only (.emit _) h1).only (.rangeKeys _) h2) h3⟩⟩
    rw [hks]
    exact (hord _ _).nodup_iff.2 (structTags_nodup fs)
  unfold encodeStrct at he ⊢
  dsimp only at he ⊢
  obtain ⟨_, s1, h1, he⟩ := E.bind_ok.1 he
  obtain ⟨_, s2, h2, he⟩ := E.bind_ok.1 he
  have hf2 : ∀ k f, WritesField fs k f → Fresh c inp f.val s2 :=
    fun k f h => ((hf k f h).only (.emit _) h1).only (.bytes _ _) h2
  refine E.bind_ok.2 ⟨(), s1, h1, E.bind_ok.2 ⟨(), s2, h2, ?_⟩⟩
  split at he
  · rename_i hb
    rw [if_pos hb]
    obtain ⟨_, s3, h3, h4⟩ := E.bind_ok.1 he
    exact E.bind_ok.2 ⟨(), s3, h3, key s3 (fun k v hv => (hf2 k v hv).only (.emit _) h3) h4⟩
  · rename_i hb
    rw [if_neg hb]
    exact key s2 hf2 he

/-- Items without anything inside. -/
theorem written_leaf {v : Val} (hv : Plainly v ∨ v = .nilptr ∨ (∃ cls d, v = .frozen cls d) ∨
    (∃ cls r u, v = .marshaler cls r u ∧ c.disableFreeze = false)) {rn : Bool} {t : Tree} (hw : Written c inp rn v t) :
    NoRefs t := by
  rcases hv with hv | rfl | ⟨cls, d, rfl⟩ | ⟨cls, r, u, rfl, hd⟩
  · cases hw <;> first | exact hv.elim | constructor
  · cases hw; exact .ref .undef
  · cases hw with
    | frozen hp =>
      refine .obj (.refWrap (.map (fun k t ht => ?_)))
      have := hp.mem_iff.1 ht
      simp only [List.mem_cons, Prod.mk.injEq, List.not_mem_nil, or_false] at this
      rcases this with ⟨_, rfl⟩ | ⟨_, rfl⟩
      · exact .str
      · exact .bin
  · cases hw with
    | marshaler => exact .frz (.ref (.arr (fun t ht => by rw [List.mem_singleton.1 ht]; exact .bin)))
    | marshalerOff h => rw [hd] at h; cases h

theorem arr_alone {p : Nat} {ts : List Tree} {rn : Bool}
    (hW : ∀ (i : Nat) t, ts[i]? = some t → Alone c inp false (inp.cellAt (p + i)) t) :
    Alone c inp rn (.slice p ts.length) (refWrap (c.perlCompat && !rn) (.arr ts)) ∧
    Alone c inp rn (.rslice p ts.length) (refWrap (c.perlCompat && !rn) (.arr ts)) := by
  have hn : NoRefs (refWrap (c.perlCompat && !rn) (.arr ts)) := .refWrap (.arr (fun t ht => by
    obtain ⟨i, hi, rfl⟩ := List.getElem_of_mem ht
    exact (hW i _ (by simp)).2))
  exact ⟨⟨.slice (fun i t h => (hW i t h).1), hn⟩, ⟨.rslice (fun i t h => (hW i t h).1), hn⟩⟩

theorem map_alone {m : Nat} {kts : List (Bytes × Tree)} {rn : Bool}
    (hp : (kts.map Prod.fst).Perm ((inp.mapAt m).map Prod.fst))
    (hW : ∀ k t v, (k, t) ∈ kts → mapLookup k (inp.mapAt m) = some v → Alone c inp false v t) :
    Alone c inp rn (.smap m) (refWrap (c.perlCompat && !rn) (.map kts)) ∧
    Alone c inp rn (.rmap m) (refWrap (c.perlCompat && !rn) (.map kts)) := by
  have hn : NoRefs (refWrap (c.perlCompat && !rn) (.map kts)) := .refWrap (.map (fun k t ht => by
    obtain ⟨v, hv⟩ := mem_of_keys hp ht
    exact (hW k t v ht hv).2))
  exact ⟨⟨.smap hp (fun k t v h h' => (hW k t v h h').1), hn⟩, ⟨.rmap hp (fun k t v h h' => (hW k t v h h').1), hn⟩⟩

theorem once_run {v : Val} {m : E Unit} {R : Tree → Prop} (h : EncItem c inp base m R) :
    EncItem c inp base (once c inp v m) R := h.of_run (fun _ _ he => (once_ok.1 he).2)

theorem encodeVal_once (hord : ∀ n ks, (c.ord n ks).Perm ks) (rec : Option (Val → Bool → Bool → E Unit))
    (hit : ∀ r, rec = some r → ∀ v rn, EncItem c inp base (r v false rn) (Written c inp rn v))
    (honly : ∀ r, rec = some r → ∀ v ik rn, Only (PtrKey c inp v) (r v ik rn))
    (hrec : ∀ r, rec = some r → ∀ v rn, EncItem c inp base (once c inp v (r v false rn)) (Alone c inp rn v))
    {v : Val} (hu : Unshared c inp v) (rn : Bool) :
    EncItem c inp base (once c inp v (encodeVal c inp rec v false rn)) (Alone c inp rn v) := by
  have leaf : ∀ v, (Plainly v ∨ v = .nilptr ∨ (∃ cls d, v = .frozen cls d) ∨
      (∃ cls r u, v = .marshaler cls r u ∧ c.disableFreeze = false)) → ∀ rn,
      EncItem c inp base (once c inp v (encodeVal c inp rec v false rn)) (Alone c inp rn v) :=
    fun v hv rn => (once_run (encodeVal_item hord rec hit v rn)).imp (fun t hw => ⟨hw, written_leaf hv hw⟩)
  induction hu generalizing rn with
  | plain h => exact leaf _ (.inl h) rn
  | nilptr => exact leaf _ (.inr (.inl rfl)) rn
  | frozen => exact leaf _ (.inr (.inr (.inl ⟨_, _, rfl⟩))) rn
  | freeze h => exact leaf _ (.inr (.inr (.inr ⟨_, _, _, rfl, h⟩))) rn
  | @slice p n hu hp _ =>
    unfold encodeVal
    cases rec with
    | none => exact once_run failItem
    | some r =>
      refine ((arrVal (fun v => hrec r rfl v false) p n rn).of_run (m := once _ _ _ _) (fun s s' he => ?_)).imp ?_
      · obtain ⟨⟨_, hf⟩, he⟩ := once_ok.1 he
        exact arr_once (fun v => honly r rfl v _ _) hu hp (fun i hi => hf.sub (.inl (.elem hi))) he
      · rintro t ⟨ts, rfl, rfl, hW⟩
        exact (arr_alone hW).1
  | @rslice p n hu hp _ =>
    unfold encodeVal
    cases rec with
    | none => exact once_run failItem
    | some r =>
      refine ((arrVal (fun v => hrec r rfl v false) p n rn).of_run (m := once _ _ _ _) (fun s s' he => ?_)).imp ?_
      · obtain ⟨⟨_, hf⟩, he⟩ := once_ok.1 he
        exact arr_once (fun v => honly r rfl v _ _) hu hp (fun i hi => hf.sub (.inl (.relem hi))) he
      · rintro t ⟨ts, rfl, rfl, hW⟩
        exact (arr_alone hW).2
  | @smap m hnd hu hp _ =>
    unfold encodeVal
    cases rec with
    | none => exact once_run failItem
    | some r =>
      refine ((mapVal (fun v => hrec r rfl v false) hord (inp.mapAt m) rn true).of_run (m := once _ _ _ _)
        (fun s s' he => ?_)).imp ?_
      · obtain ⟨⟨_, hf⟩, he⟩ := once_ok.1 he
        exact mp_once hord (fun v => honly r rfl v _ _) hnd hu hp (fun k v hv => hf.sub (.inl (.entry hv))) he
      · rintro t ⟨kts, rfl, hp, hW⟩
        exact (map_alone hp hW).1
  | @rmap m hnd hu hp _ =>
    unfold encodeVal
    cases rec with
    | none => exact once_run failItem
    | some r =>
      refine ((mapVal (fun v => hrec r rfl v false) hord (inp.mapAt m) rn c.perlCompat).of_run (m := once _ _ _ _)
        (fun s s' he => ?_)).imp ?_
      · obtain ⟨⟨_, hf⟩, he⟩ := once_ok.1 he
        exact mp_once hord (fun v => honly r rfl v _ _) hnd hu hp (fun k v hv => hf.sub (.inl (.rentry hv))) he
      · rintro t ⟨kts, rfl, hp, hW⟩
        exact (map_alone hp hW).2
  | @strct name a hu hp _ =>
    unfold encodeVal
    cases rec with
    | none => exact once_run failItem
    | some r =>
      refine ((strctItem (fun v => hrec r rfl v false) hord name (inp.fieldsAt a)).of_run (m := once _ _ _ _)
        (fun s s' he => ?_)).imp ?_
      · obtain ⟨⟨_, hf⟩, he⟩ := once_ok.1 he
        exact strct_once hord (fun v => honly r rfl v _ _) hu hp (fun k f h => hf.sub (.inl (.field h))) he
      · rintro t ⟨kts, rfl, hnd, hk, hW⟩
        refine ⟨.strct hnd hk (fun k t v h h' => (hW k t v h h').1), .obj (.refWrap (.map (fun k t ht => ?_)))⟩
        have h1 := (hk k).1 (List.mem_map.2 ⟨(k, t), ht, rfl⟩)
        obtain ⟨v, hv⟩ := Option.isSome_iff_exists.1 ((lastLookup_isSome k _).2 h1)
        exact (hW k t v ht hv).2
  | @same v w hsl _ ih =>
    have hl : Leads c inp v w := .inr (.inl hsl)
    cases hsl with
    | obj =>
      refine (objItem (encKey_bytes _ true) (ih false) (fun t ht => ⟨.obj ht.1, .obj ht.2⟩)).of_run (fun s s' he => ?_)
      obtain ⟨⟨_, hf⟩, he⟩ := once_ok.1 he
      obtain ⟨_, s1, h1, he⟩ := E.bind_ok.1 he
      obtain ⟨_, s2, h2, h3⟩ := E.bind_ok.1 he
      exact E.bind_ok.2 ⟨(), s1, h1, E.bind_ok.2 ⟨(), s2, h2, once_ok.2
        ⟨⟨by assumption, ((hf.sub hl).only (.emit _) h1).only (.bytes _ _) h2⟩, h3⟩⟩⟩
    | weak =>
      refine (weakItem (ih false) (fun t ht => ⟨.weak ht.1, .weak ht.2⟩)).of_run (fun s s' he => ?_)
      obtain ⟨⟨_, hf⟩, he⟩ := once_ok.1 he
      obtain ⟨_, s1, h1, h2⟩ := E.bind_ok.1 he
      exact E.bind_ok.2 ⟨(), s1, h1, once_ok.2 ⟨⟨by assumption, (hf.sub hl).only (.emit _) h1⟩, h2⟩⟩
    | under hd =>
      refine ((ih rn).imp (fun t ht => ⟨.marshalerOff hd ht.1, ht.2⟩)).of_run (fun s s' he => ?_)
      obtain ⟨⟨_, hf⟩, he⟩ := once_ok.1 he
      unfold encodeVal at he
      rw [if_pos hd] at he
      exact once_ok.2 ⟨⟨by assumption, hf.sub hl⟩, he⟩
  | @perl a hpt hu _ =>
    unfold encodeVal
    cases rec with
    | none => exact once_run failItem
    | some r =>
      refine ((hrec r rfl (inp.cellAt a) false).imp (fun t ht => ⟨.ptrPerl (perl_iff.2 hpt) ht.1, ht.2⟩)).of_run
        (fun s s' he => ?_)
      obtain ⟨⟨_, hf⟩, he⟩ := once_ok.1 he
      unfold encodePtr at he
      dsimp only at he
      rw [if_pos (by simpa using perl_iff.2 hpt)] at he
      exact once_ok.2 ⟨⟨hu, hf.sub (.inl (.perl hpt))⟩, he⟩
  | @ptr v a ho hu hna _ =>
    obtain ⟨iface, rfl, hi⟩ : ∃ iface, v = .ptr iface a ∧ ¬ (!iface && isPerlStruct (inp.cellAt a)) = true := by
      rcases ho with rfl | ⟨rfl, hp⟩
      · exact ⟨true, rfl, by simp⟩
      · exact ⟨false, rfl, by simpa using fun h => hp (perl_iff.1 h)⟩
    unfold encodeVal
    cases rec with
    | none => exact once_run failItem
    | some r =>
      dsimp only
      intro s s' g hinv he
      obtain ⟨⟨_, hf⟩, he⟩ := once_ok.1 he
      unfold encodePtr at he
      dsimp only at he
      rw [if_neg hi] at he
      cases hg : getPointer c inp iface a with
      | error e => rw [hg] at he; cases he
      | ok p =>
        rw [hg] at he
        dsimp only at he
        have hpd := getPointer_ok hg
        obtain ⟨st, s0, h0, he2⟩ := E.bind_ok.1 he
        clear he
        obtain ⟨rfl, rfl⟩ := E.get_ok.1 h0
        have hnone : findPtr s0 a p = none := by
          unfold findPtr
          rw [hf a (.here ho (.inl rfl))]
          dsimp only
          split
          · rename_i hp0
            exact hf p (.here ho (.inr ⟨hpd, hp0⟩))
          · rfl
        rw [hnone] at he2
        dsimp only at he2
        obtain ⟨g', t, hW, hrest⟩ := ptrFirst (hrec r rfl (inp.cellAt a) true) (fun t h => h.1) hpd hinv (s' := s') (by
          obtain ⟨_, s1, h1, he⟩ := E.bind_ok.1 he2
          obtain ⟨_, s2, h2, he⟩ := E.bind_ok.1 he
          obtain ⟨_, s3, h3, h4⟩ := E.bind_ok.1 he
          refine E.bind_ok.2 ⟨(), s1, h1, E.bind_ok.2 ⟨(), s2, h2, E.bind_ok.2 ⟨(), s3, once_ok.2 ⟨⟨hu, ?_⟩, h3⟩, h4⟩⟩⟩
          intro κ hk
          have h5 := (hf.sub (.inr (.inr ⟨a, ho, rfl⟩))).only (.emit _) h1 κ hk
          have hne : κ ≠ a := by
            rintro rfl
            exact hna hk
          rw [rememberPtr_ok h2]
          show (if κ = a then _ else _) = _
          rw [if_neg hne]
          exact h5)
        refine ⟨g', .ref t, ⟨.ptr (fun h => ?_) hW.1, .ref hW.2⟩, hrest⟩
        subst h
        simpa using hi

theorem encode_once (hord : ∀ n ks, (c.ord n ks).Perm ks) (d : Nat) (v : Val) (rn : Bool) :
    EncItem c inp base (once c inp v (encode c inp d v false rn)) (Alone c inp rn v) := by
  induction d using Nat.strongRecOn generalizing v rn with
  | _ d ih =>
    by_cases hu : Unshared c inp v
    · match d with
      | 0 => exact encodeVal_once hord none (fun _ h => by cases h) (fun _ h => by cases h) (fun _ h => by cases h) hu rn
      | 1 => exact encodeVal_once hord none (fun _ h => by cases h) (fun _ h => by cases h) (fun _ h => by cases h) hu rn
      | d + 2 =>
        exact encodeVal_once hord _ (fun r h => by cases h; exact fun v rn => encode_item hord _ v rn)
          (fun r h => by cases h; exact fun v ik rn => encode_only _ v ik rn)
          (fun r h => by cases h; exact fun v rn => ih (d + 1) (by omega) v rn) hu rn
    · intro s s' g _ he
      exact absurd (once_ok.1 he).1.1 hu

/-! ### Trees without references -/

/-- `Written` without the ways in which a pointer is met again. -/
inductive Solo (c : ECfg) (inp : Heap) : Bool → Val → Tree → Prop
  | nil {rn} : Solo c inp rn .nil .undef
  | bool {rn b} : Solo c inp rn (.bool b) (.bool b)
  | int {rn k i} : Solo c inp rn (.int k i) (.int i.toInt)
  | uint {rn k n} : Solo c inp rn (.uint k n) (.int n.toNat)
  | f32 {rn u} : Solo c inp rn (.f32 u) (.f32 u)
  | f64 {rn u} : Solo c inp rn (.f64 u) (.f64 u)
  | str {rn s} : Solo c inp rn (.str s) (.str s)
  | bin {rn s} : Solo c inp rn (.bin s) (.bin s)
  -- json.Number: an integer that fits 64 bits; the text if it is an integer that does not fit or starts
  -- with too many digits; otherwise a float if it parses as one, or the text
  | jnumInt {rn s z} : IntText s z → -2 ^ 63 ≤ z → z < 2 ^ 63 → Solo c inp rn (.jnum s) (.int z)
  | jnumFloat {rn s f} : (∀ z, ¬ IntText s z) → ¬ DigitOverflow s → c.parseFloat s = some f →
      Solo c inp rn (.jnum s) (.f64 f)
  | jnumText {rn s} : (∀ z, IntText s z → z < -2 ^ 63 ∨ 2 ^ 63 ≤ z) →
      ((∃ z, IntText s z) ∨ DigitOverflow s ∨ c.parseFloat s = none) → Solo c inp rn (.jnum s) (.str s)
  -- containers
  | slice {rn p ts} : (∀ i t, ts[i]? = some t → Solo c inp false (inp.cellAt (p + i)) t) →
      Solo c inp rn (.slice p ts.length) (refWrap (c.perlCompat && !rn) (.arr ts))
  | rslice {rn p ts} : (∀ i t, ts[i]? = some t → Solo c inp false (inp.cellAt (p + i)) t) →
      Solo c inp rn (.rslice p ts.length) (refWrap (c.perlCompat && !rn) (.arr ts))
  | smap {rn m kts} : (kts.map Prod.fst).Perm ((inp.mapAt m).map Prod.fst) →
      (∀ k t v, (k, t) ∈ kts → mapLookup k (inp.mapAt m) = some v → Solo c inp false v t) →
      Solo c inp rn (.smap m) (refWrap (c.perlCompat && !rn) (.map kts))
  | rmap {rn m kts} : (kts.map Prod.fst).Perm ((inp.mapAt m).map Prod.fst) →
      (∀ k t v, (k, t) ∈ kts → mapLookup k (inp.mapAt m) = some v → Solo c inp false v t) →
      Solo c inp rn (.rmap m) (refWrap (c.perlCompat && !rn) (.map kts))
  | strct {rn name a kts} : (kts.map Prod.fst).Nodup →
      (∀ k, k ∈ kts.map Prod.fst ↔ k ∈ (fieldEntries (inp.fieldsAt a)).map Prod.fst) →
      (∀ k t v, (k, t) ∈ kts → lastLookup k (fieldEntries (inp.fieldsAt a)) = some v →
        Solo c inp false v t) →
      Solo c inp rn (.strct name a) (.obj name (refWrap c.perlCompat (.map kts)))
  -- Perl values
  | undef {rn} : Solo c inp rn (.undef false) .undef
  | cundef {rn} : Solo c inp rn (.undef true) .cundef
  | obj {rn cls v t} : Solo c inp false v t → Solo c inp rn (.obj cls v) (.obj cls t)
  | weak {rn v t} : Solo c inp false v t → Solo c inp rn (.weak v) (.weak t)
  | regexp {rn p m} : Solo c inp rn (.regexp p m) (.regexp p m)
  /-- PerlFreeze is written like any other struct. -/
  | frozen {rn cls data kts} :
      kts.Perm [(nameClass, .str cls), (nameData, .bin data)] →
      Solo c inp rn (.frozen cls data) (.obj namePerlFreeze (refWrap c.perlCompat (.map kts)))
  | marshaler {rn cls data under} : c.disableFreeze = false →
      Solo c inp rn (.marshaler cls (.ok data) under) (.frz cls (.ref (.arr [.bin data])))
  | marshalerOff {rn cls res under t} : c.disableFreeze = true → Solo c inp rn under t →
      Solo c inp rn (.marshaler cls res under) t
  -- named types
  | nbool {rn b} : Solo c inp rn (.nbool b) (.bool b)
  | nint {rn k i} : k = .int ∨ 0 ≤ i → Solo c inp rn (.nint k i) (.int i.toInt)
  /-- Named int8, int16, int32 and int64 types: negative numbers are written modulo 2^64. -/
  | nintWrap {rn k i} : k ≠ .int → i < 0 → Solo c inp rn (.nint k i) (.int (2 ^ 64 + i.toInt))
  | nf32 {rn u} : Solo c inp rn (.nf32 u) (.f32 u)
  | nf64 {rn u} : Solo c inp rn (.nf64 u) (.f64 u)
  | nstr {rn s} : Solo c inp rn (.nstr s) (.str s)
  -- pointers
  | nilptr {rn} : Solo c inp rn .nilptr (.ref .undef)
  | ptrPerl {rn a t} : isPerlStruct (inp.cellAt a) = true → Solo c inp false (inp.cellAt a) t →
      Solo c inp rn (.ptr false a) t
  | ptr {rn b a t} : (b = false → isPerlStruct (inp.cellAt a) = false) →
      Solo c inp true (inp.cellAt a) t → Solo c inp rn (.ptr b a) (.ref t)

theorem NoRefs.refWrap_inv {b : Bool} {t : Tree} (h : NoRefs (Sereal.refWrap b t)) : NoRefs t := by
  unfold Sereal.refWrap at h
  split at h
  · cases h; assumption
  · exact h

theorem NoRefs.arr_inv {ts : List Tree} (h : NoRefs (.arr ts)) : ∀ t ∈ ts, NoRefs t := by cases h; assumption
theorem NoRefs.map_inv {kvs : List (Bytes × Tree)} (h : NoRefs (.map kvs)) : ∀ k t, (k, t) ∈ kvs → NoRefs t := by
  cases h; assumption
theorem NoRefs.obj_inv {cls : Bytes} {t : Tree} (h : NoRefs (.obj cls t)) : NoRefs t := by cases h; assumption

theorem Written.solo {rn : Bool} {v : Val} {t : Tree} (hw : Written c inp rn v t) (hn : NoRefs t) :
    Solo c inp rn v t := by
  induction hw with
  | nil => exact .nil
  | bool => exact .bool
  | int => exact .int
  | uint => exact .uint
  | f32 => exact .f32
  | f64 => exact .f64
  | str => exact .str
  | bin => exact .bin
  | jnumInt h1 h2 h3 => exact .jnumInt h1 h2 h3
  | jnumFloat h1 h2 h3 => exact .jnumFloat h1 h2 h3
  | jnumText h1 h2 => exact .jnumText h1 h2
  | slice _ ih => exact .slice (fun i t h => ih i t h (hn.refWrap_inv.arr_inv t (List.mem_of_getElem? h)))
  | rslice _ ih => exact .rslice (fun i t h => ih i t h (hn.refWrap_inv.arr_inv t (List.mem_of_getElem? h)))
  | smap hp _ ih => exact .smap hp (fun k t v h h' => ih k t v h h' (hn.refWrap_inv.map_inv k t h))
  | rmap hp _ ih => exact .rmap hp (fun k t v h h' => ih k t v h h' (hn.refWrap_inv.map_inv k t h))
  | strct h1 h2 _ ih =>
    exact .strct h1 h2 (fun k t v h h' => ih k t v h h' (hn.obj_inv.refWrap_inv.map_inv k t h))
  | undef => exact .undef
  | cundef => exact .cundef
  | obj _ ih => exact .obj (ih hn.obj_inv)
  | weak _ ih => cases hn with | weak hn => exact .weak (ih hn)
  | regexp => exact .regexp
  | frozen h => exact .frozen h
  | marshaler h => exact .marshaler h
  | marshalerOff h _ ih => exact .marshalerOff h (ih hn)
  | nbool => exact .nbool
  | nint h => exact .nint h
  | nintWrap h1 h2 => exact .nintWrap h1 h2
  | nf32 => exact .nf32
  | nf64 => exact .nf64
  | nstr => exact .nstr
  | nilptr => exact .nilptr
  | ptrPerl h _ ih => exact .ptrPerl h (ih hn)
  | ptr h _ ih => cases hn with | ref hn => exact .ptr h (ih hn)
  | ptrAgain => cases hn
  | ptrShare => cases hn
  | ptrOpen => cases hn

theorem Alone.solo {rn : Bool} {v : Val} {t : Tree} (h : Alone c inp rn v t) : Solo c inp rn v t := h.1.solo h.2

/-- The body Marshal writes for a value in which every pointer is met once. -/
theorem encodeAfter_alone (hord : ∀ n ks, (c.ord n ks).Perm ks) {pre w : Bytes} {v : Val} (hu : Unshared c inp v)
    (h : encodeAfter c inp pre v = .ok w) (hsz : pre.length + w.length < 2 ^ 63) :
    ∃ t, Alone c inp false v t ∧ Fits (pre.length + w.length) t ∧
      ∀ pre' ext, pre'.length = pre.length → Fits maxSize t →
        Denotes wrtDialect (pre' ++ w ++ ext) pre.length t (pre.length + w.length) :=
  encodeAfter_of (fun s s' g hi hs he => encode_once hord _ v false s s' g hi
    (once_ok.2 ⟨⟨hu, fun κ _ => by rw [hs]⟩, he⟩)) h hsz

/-- What an uncompressed document denotes, for a value in which every pointer is met once. -/
theorem raw_denotes_alone {cfg : ECfg} {cs : Codecs} {inp : Heap} {header : Option Val} {v : Val} {doc : Bytes}
    (hord : ∀ n ks, (cfg.ord n ks).Perm ks) (hu : Unshared cfg inp v)
    (hver : cfg.version ≤ 3) (hc : cfg.compression = none) (h : marshalWithHeader cfg cs inp header v = .ok doc)
    (hsz : doc.length < 2 ^ 63) :
    ∃ lf suf body t, IsDoc doc cfg.ver 0 lf suf body ∧ (header = none → suf = []) ∧
      Alone cfg inp false v t ∧ Fits doc.length t ∧
      (Fits maxSize t → Denotes wrtDialect (itemBuf cfg.ver (headBytes cfg.ver 0 lf suf) body).1
        (itemBuf cfg.ver (headBytes cfg.ver 0 lf suf) body).2 t
        (itemBuf cfg.ver (headBytes cfg.ver 0 lf suf) body).1.length) := by
  obtain ⟨lf, suf, body, pre0, pre, h1, h2, h3, h4, h5, h6⟩ := raw_body hver hc h hsz
  have hlen : pre0.length + body.length = (pre ++ body).length := by simp [h4]
  obtain ⟨t, hW, hF, hD⟩ := encodeAfter_alone hord hu h3 (by omega)
  refine ⟨lf, suf, body, t, h1, h2, hW, hF.mono (by omega), fun hm => ?_⟩
  have := hD pre [] h4.symm hm
  rw [List.append_nil, hlen, h4] at this
  rw [h5]
  exact this

/-- Unmarshal of such a document. -/
theorem raw_roundtrip_alone {cfg : ECfg} {cs : Codecs} {inp : Heap} {header : Option Val} {v : Val} {doc : Bytes}
    (hord : ∀ n ks, (cfg.ord n ks).Perm ks) (hu : Unshared cfg inp v)
    (hver : cfg.version ≤ 3) (hc : cfg.compression = none) (h : marshalWithHeader cfg cs inp header v = .ok doc)
    (hsz : doc.length < 2 ^ 63) :
    ∃ t, Alone cfg inp false v t ∧ Fits doc.length t ∧
      ∀ dcfg : DCfg, Fits maxSize t → Supported dcfg.view t →
        ∃ h' v', unmarshal dcfg cs doc = .ok (h', v') ∧ Shows dcfg.view h' v' t := by
  obtain ⟨lf, suf, body, t, h1, _, h3, h4, h5⟩ := raw_denotes_alone hord hu hver hc h hsz
  refine ⟨t, h3, h4, fun dcfg hF hs => ?_⟩
  obtain ⟨T, g⟩ := h5 hF
  exact unmarshal_complete (bodyInput_raw h1) h1.buf_lt ⟨T, g.wrt_core.core_go⟩ hs

/-! ### Values without pointers -/

theorem NoPointers.sub {v w : Val} (h : NoPointers c inp v) (hl : Leads c inp v w) : NoPointers c inp w := by
  obtain ⟨S, h1, h2⟩ := h
  exact ⟨S, (h2 v h1).2 w hl, h2⟩

theorem NoPointers.not_ptr {v : Val} (h : NoPointers c inp v) (a : Addr) : ¬ OrdPtr inp v a := by
  obtain ⟨S, h1, h2⟩ := h
  exact (h2 v h1).1 a

theorem NoPointers.no_key {v : Val} (h : NoPointers c inp v) (κ : Addr) : ¬ PtrKey c inp v κ := by
  intro hk
  induction hk with
  | here ho _ => exact h.not_ptr _ ho
  | deep hl _ ih => exact ih (h.sub hl)

theorem NoPointers.unlinked {v w : Val} (h : NoPointers c inp v) : Unlinked c inp v w :=
  fun κ hk => absurd hk (h.no_key κ)

end Sereal
