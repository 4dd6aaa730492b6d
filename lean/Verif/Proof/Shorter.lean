import Verif.Spec.Names
import Verif.Proof.Writable
/-
C77: the run with deduplication and the run without, side by side.
-/
namespace Sereal

/-- The first state is that of a run with deduplication, the second that of a run without. -/
structure Leaner (s s' : EState) : Prop where
  len : s.buf.length ≤ s'.buf.length
  visits : s.visits = s'.visits
  ptrs : ∀ a, (s.ptrTable a = none ∧ s'.ptrTable a = none) ∨ ∃ o o', s.ptrTable a = some o ∧ s'.ptrTable a = some o' ∧ o ≤ o'
  strs : ∀ k o, s.strTable k = some o → o ≤ s.buf.length

/-- The first action appends to the buffer, and while the buffer has at most `N` bytes it keeps ahead. -/
def LeanRuns (N : Nat) {α : Type} (x x' : E α) : Prop :=
  (∀ s a t, x s = .ok (a, t) → s.buf.length ≤ t.buf.length) ∧
  ∀ s s' a t a' t', Leaner s s' → x s = .ok (a, t) → x' s' = .ok (a', t') → t.buf.length ≤ N → a = a' ∧ Leaner t t'

variable {N : Nat}

theorem LeanRuns.pure {α : Type} (a : α) : LeanRuns N (Pure.pure a : E α) (Pure.pure a) :=
  ⟨fun s b t e => by cases e; exact Nat.le_refl _, fun s s' b t b' t' hs e e' _ => by cases e; cases e'; exact ⟨rfl, hs⟩⟩

theorem LeanRuns.bind {α β : Type} {x x' : E α} {f f' : α → E β} (hx : LeanRuns N x x') (hf : ∀ a, LeanRuns N (f a) (f' a)) :
    LeanRuns N (x >>= f) (x' >>= f') := by
  constructor
  · intro s b u e
    obtain ⟨a, t, e1, e2⟩ := E.bind_ok.1 e
    exact Nat.le_trans (hx.1 _ _ _ e1) ((hf a).1 _ _ _ e2)
  · intro s s' b u b' u' hs e e' hn
    obtain ⟨a, t, e1, e2⟩ := E.bind_ok.1 e
    obtain ⟨a', t', e1', e2'⟩ := E.bind_ok.1 e'
    obtain ⟨rfl, ht⟩ := hx.2 s s' _ _ _ _ hs e1 e1' (Nat.le_trans ((hf a).1 _ _ _ e2) hn)
    exact (hf a).2 _ _ _ _ _ _ ht e2 e2' hn

theorem LeanRuns.fail {α : Type} {e e' : Exn} : LeanRuns N (E.fail e : E α) (E.fail e') :=
  ⟨(fun s a t h => by cases h), (fun s s' a t a' t' _ h => by cases h)⟩

theorem LeanRuns.err {α : Type} {e e' : Err} : LeanRuns N (E.err e : E α) (E.err e') := .fail

theorem LeanRuns.emit {bs bs' : Bytes} (h : bs.length ≤ bs'.length) : LeanRuns N (emit bs) (emit bs') := by
  constructor
  · intro s a t e
    cases e
    simp
  · intro s s' a t a' t' hs e e' _
    cases e
    cases e'
    refine ⟨rfl, ?_, hs.visits, hs.ptrs, fun k o ho => ?_⟩
    · have := hs.len
      simp only [List.length_append]
      omega
    · have := hs.strs k o ho
      simp only [List.length_append]
      omega

theorem LeanRuns.same (bs : Bytes) : LeanRuns N (Sereal.emit bs) (Sereal.emit bs) := .emit (Nat.le_refl _)

theorem LeanRuns.ptr (a : Addr) {n n' : Nat} (h : n ≤ n') : LeanRuns N (rememberPtr a n) (rememberPtr a n') := by
  constructor
  · intro s b t e
    cases e
    exact Nat.le_refl _
  · intro s s' b t b' t' hs e e' _
    cases e
    cases e'
    refine ⟨rfl, hs.len, hs.visits, fun a' => ?_, hs.strs⟩
    dsimp only
    by_cases ha : a' = a
    · rw [if_pos ha, if_pos ha]; exact .inr ⟨_, _, rfl, rfl, h⟩
    · rw [if_neg ha, if_neg ha]; exact hs.ptrs a'

theorem LeanRuns.flag (n n' : Nat) : LeanRuns N (setTrackFlag n) (setTrackFlag n') := by
  have one : ∀ {s : EState} {n : Nat} {a : Unit} {t : EState}, setTrackFlag n s = .ok (a, t) →
      t = { s with buf := s.buf.modify n (· ||| trackFlag) } := by
    intro s n a t e
    unfold setTrackFlag at e
    split at e
    · cases e; rfl
    · cases e
  constructor
  · intro s b t e
    cases one e
    simp
  · intro s s' b t b' t' hs e e' _
    cases one e
    cases one e'
    refine ⟨rfl, ?_, hs.visits, hs.ptrs, fun k o ho => ?_⟩
    · simpa using hs.len
    · simpa using hs.strs k o ho

theorem LeanRuns.range {α : Type} {cfg cfg' : ECfg} (ho : cfg.ord = cfg'.ord) (hord : ∀ n ks, (cfg.ord n ks).Perm ks) {ks : List Bytes}
    {f f' : List Bytes → E α} (hf : ∀ l : List Bytes, (∀ k ∈ l, k ∈ ks) → LeanRuns N (f l) (f' l)) :
    LeanRuns N (rangeKeys cfg ks >>= f) (rangeKeys cfg' ks >>= f') := by
  have hm : ∀ n, ∀ k ∈ cfg.ord n ks, k ∈ ks := fun n k hk => (hord n ks).mem_iff.1 hk
  constructor
  · intro s a t e
    exact (hf (cfg.ord s.visits ks) (hm _)).1 { s with visits := s.visits + 1 } a t e
  · intro s s' a t a' t' hs e e' hn
    have e'' : f' (cfg.ord s.visits ks) { s' with visits := s'.visits + 1 } = .ok (a', t') := by
      rw [ho, hs.visits]; exact e'
    exact (hf (cfg.ord s.visits ks) (hm _)).2 { s with visits := s.visits + 1 } { s' with visits := s'.visits + 1 } a t a' t'
      ⟨hs.len, congrArg (· + 1) hs.visits, hs.ptrs, hs.strs⟩ e e'' hn

theorem LeanRuns.get {α : Type} {f f' : EState → E α} (h : ∀ s s', Leaner s s' → LeanRuns N (f s) (f' s'))
    (hg : ∀ s a t, f s s = .ok (a, t) → s.buf.length ≤ t.buf.length) :
    LeanRuns N (E.get >>= f) (E.get >>= f') :=
  ⟨fun s a t e => hg s a t e, fun s s' a t a' t' hs e e' hn => (h s s' hs).2 s s' a t a' t' hs e e' hn⟩

theorem LeanRuns.ite {α : Type} {c : Prop} [Decidable c] {x x' y y' : E α} (h1 : c → LeanRuns N x x') (h2 : ¬ c → LeanRuns N y y') :
    LeanRuns N (if c then x else y) (if c then x' else y') := by
  by_cases e : c
  · rw [if_pos e, if_pos e]; exact h1 e
  · rw [if_neg e, if_neg e]; exact h2 e

theorem varint_length_mono {n m : Nat} (h : n ≤ m) : (varint n).length ≤ (varint m).length := by
  induction m using Nat.strongRecOn generalizing n with
  | ind m ih =>
    by_cases hm : m < 128
    · rw [varint_lt hm, varint_lt (by omega)]
      exact Nat.le_refl _
    · rw [varint_ge (by omega : 128 ≤ m), List.length_cons]
      by_cases hn : n < 128
      · rw [varint_lt hn]; simp
      · rw [varint_ge (by omega : 128 ≤ n), List.length_cons]
        exact Nat.succ_le_succ (ih (m / 128) (by omega) (by omega))

/-- A name that is known against a literal with enough room. -/
theorem lean_copy {offs n m : Nat} {lit : Bytes} (hlit : n + 1 ≤ lit.length) (ho : offs ≤ m) (hb : m + (copyItem offs).length ≤ N)
    (hN : N ≤ 2 ^ (7 * n)) : (copyItem offs).length ≤ lit.length := by
  have h1 : 1 ≤ (varint offs).length := by
    have := varint_ne_nil offs
    cases h : varint offs with
    | nil => exact (this h).elim
    | cons => simp
  unfold copyItem at *
  rw [List.length_cons] at *
  rcases Nat.eq_zero_or_pos n with rfl | hn
  · simp at hN; omega
  · have := varint_length_le (n := offs) hn (by omega)
    omega

variable {cfg : ECfg}

/-- A name, known or not, against its literal. -/
theorem lean_name {s : Bytes} {lit : Bytes} {n : Nat} (hlit : n + 1 ≤ lit.length) (hN : N ≤ 2 ^ (7 * n)) :
    LeanRuns N (E.get >>= fun st => match st.strTable s with
      | some offs => emit (copyItem offs)
      | none => do
        rememberStr s
        emit lit) (emit lit) := by
  constructor
  · intro st a t e
    change (match st.strTable s with
      | some offs => emit (copyItem offs)
      | none => do
        rememberStr s
        emit lit) st = _ at e
    cases ho : st.strTable s with
    | some offs => rw [ho] at e; cases e; simp
    | none => rw [ho] at e; cases e; simp
  · intro st st' a t a' t' hs e e' hn
    change (match st.strTable s with
      | some offs => emit (copyItem offs)
      | none => do
        rememberStr s
        emit lit) st = _ at e
    cases e'
    have hl := hs.len
    cases ho : st.strTable s with
    | some offs =>
      rw [ho] at e
      cases e
      have h1 := hs.strs _ _ ho
      simp only [List.length_append] at hn
      have h2 := lean_copy hlit h1 hn hN
      refine ⟨rfl, ?_, hs.visits, hs.ptrs, fun k o hk => ?_⟩
      · simp only [List.length_append]; omega
      · have := hs.strs k o hk
        simp only [List.length_append]; omega
    | none =>
      rw [ho] at e
      cases e
      refine ⟨rfl, ?_, hs.visits, hs.ptrs, fun k o hk => ?_⟩
      · simp only [List.length_append]; omega
      · dsimp only at hk
        simp only [List.length_append]
        split at hk
        · cases hk; omega
        · have := hs.strs k o hk
          omega

theorem lean_string {s : Bytes} {ik : Bool} (hN : ik = true → N ≤ 2 ^ (7 * (s.length + 1))) :
    LeanRuns N (encodeString { cfg with disableDedup := false } s ik) (encodeString { cfg with disableDedup := true } s ik) := by
  cases ik with
  | false => exact .same _
  | true =>
    refine lean_name (n := s.length + 1) ?_ (hN rfl)
    have h1 : 1 ≤ (varint s.length).length := by
      have := varint_ne_nil s.length
      cases h : varint s.length with
      | nil => exact (this h).elim
      | cons => simp
    simp only [strItem, List.length_append, List.length_cons]
    omega

theorem lean_bytes {s : Bytes} {ik : Bool} (hN : ik = true → N ≤ 2 ^ (7 * s.length)) :
    LeanRuns N (encodeBytes { cfg with disableDedup := false } s ik) (encodeBytes { cfg with disableDedup := true } s ik) := by
  cases ik with
  | false => exact .same _
  | true =>
    refine lean_name (n := s.length) ?_ (hN rfl)
    unfold binItem
    split
    · simp
    · simp only [List.length_append, List.length_cons]
      omega

theorem lean_json {s : Bytes} :
    LeanRuns N (encodeJsonNumber { cfg with disableDedup := false } s false) (encodeJsonNumber { cfg with disableDedup := true } s false) := by
  unfold encodeJsonNumber
  dsimp only
  split
  · exact .same _
  · exact lean_string (fun h => by cases h)
  · split
    · exact .same _
    · exact lean_string (fun h => by cases h)

theorem lean_elems {rec rec' : Val → E Unit} {vs : List Val} (h : ∀ v ∈ vs, LeanRuns N (rec v) (rec' v)) :
    LeanRuns N (encodeElems rec vs) (encodeElems rec' vs) := by
  induction vs with
  | nil => exact .pure _
  | cons v vs ih => exact .bind (h v (by simp)) fun _ => ih fun w hw => h w (List.mem_cons_of_mem _ hw)

theorem lean_pairs {key key' : Bytes → E Unit} {rec rec' : Val → E Unit} {kvs : List (Bytes × Val)} {ks : List Bytes}
    (hk : ∀ k ∈ ks, LeanRuns N (key k) (key' k))
    (h : ∀ k ∈ ks, LeanRuns N (rec ((mapLookup k kvs).getD .nil)) (rec' ((mapLookup k kvs).getD .nil))) :
    LeanRuns N (encodePairs key rec kvs ks) (encodePairs key' rec' kvs ks) := by
  induction ks with
  | nil => exact .pure _
  | cons k ks ih =>
    exact .bind (hk k (by simp)) fun _ => .bind (h k (by simp)) fun _ =>
      ih (fun k hk' => hk k (List.mem_cons_of_mem _ hk')) (fun k hk' => h k (List.mem_cons_of_mem _ hk'))

theorem lean_fields {rec rec' : Val → E Unit} {tags : List (Bytes × Field)} {ks : List Bytes}
    (hk : ∀ k ∈ ks, N ≤ 2 ^ (7 * (k.length + 1))) (h : ∀ k ∈ ks, ∀ f, mapLookup k tags = some f → LeanRuns N (rec f.val) (rec' f.val)) :
    LeanRuns N (encodeFields { cfg with disableDedup := false } rec tags ks) (encodeFields { cfg with disableDedup := true } rec' tags ks) := by
  induction ks with
  | nil => exact .pure _
  | cons k ks ih =>
    have ih := ih (fun k hk' => hk k (List.mem_cons_of_mem _ hk')) (fun k hk' => h k (List.mem_cons_of_mem _ hk'))
    rw [encodeFields_cons, encodeFields_cons]
    refine .bind (lean_string fun _ => hk k (by simp)) fun _ => .bind ?_ fun _ => ih
    cases hf : mapLookup k tags with
    | none => exact .pure _
    | some f => exact .ite (fun _ => .fail) fun _ => h k (by simp) f hf

variable (hord : ∀ n ks, (cfg.ord n ks).Perm ks)
include hord

theorem lean_strct {rec rec' : Val → E Unit} {name : Bytes} {fs : List Field} (hname : N ≤ 2 ^ (7 * name.length))
    (hk : ∀ k f, WritesField fs k f → N ≤ 2 ^ (7 * (k.length + 1)) ∧ LeanRuns N (rec f.val) (rec' f.val)) :
    LeanRuns N (encodeStrct { cfg with disableDedup := false } rec name fs) (encodeStrct { cfg with disableDedup := true } rec' name fs) := by
  have hrest : LeanRuns N
      (emit (typeHASH :: varint (structTags fs []).length) >>= fun _ =>
        rangeKeys { cfg with disableDedup := false } ((structTags fs []).map (·.1)) >>=
          encodeFields { cfg with disableDedup := false } rec (structTags fs []))
      (emit (typeHASH :: varint (structTags fs []).length) >>= fun _ =>
        rangeKeys { cfg with disableDedup := true } ((structTags fs []).map (·.1)) >>=
          encodeFields { cfg with disableDedup := true } rec' (structTags fs [])) := by
    refine .bind (.same _) fun _ => .range rfl hord fun l hl => lean_fields (fun k hk' => ?_) (fun k hk' f hf => ?_)
    · obtain ⟨f, hf⟩ := Option.isSome_iff_exists.1 ((mapLookup_isSome k _).2 (hl k hk'))
      exact (hk k f ((structTags_named _ _ _).1 hf)).1
    · exact (hk k f ((structTags_named _ _ _).1 hf)).2
  unfold encodeStrct
  exact .bind (.same _) fun _ => .bind (lean_bytes fun _ => hname) fun _ => .ite (fun _ => .bind (.same _) fun _ => hrest) fun _ => hrest

omit hord in
theorem lean_arr {rec rec' : Val → E Unit} {vs : List Val} (rn : Bool) (h : ∀ v ∈ vs, LeanRuns N (rec v) (rec' v)) :
    LeanRuns N (encodeArr { cfg with disableDedup := false } rec vs rn) (encodeArr { cfg with disableDedup := true } rec' vs rn) := by
  unfold encodeArr
  have hrest := LeanRuns.bind (.same (N := N) (typeARRAY :: varint vs.length)) fun _ => lean_elems h
  exact .ite (fun _ => .bind (.same _) fun _ => hrest) fun _ => hrest

theorem lean_mp {rec rec' : Val → E Unit} {kvs : List (Bytes × Val)} (rn via : Bool)
    (h : ∀ k v, mapLookup k kvs = some v → (via = true → N ≤ 2 ^ (7 * (k.length + 1))) ∧ LeanRuns N (rec v) (rec' v)) :
    LeanRuns N (encodeMp { cfg with disableDedup := false } rec kvs rn via) (encodeMp { cfg with disableDedup := true } rec' kvs rn via) := by
  have hrest : LeanRuns N
      (emit (typeHASH :: varint kvs.length) >>= fun _ => rangeKeys { cfg with disableDedup := false } (kvs.map (·.1)) >>=
        encodePairs (fun k => encodeString { cfg with disableDedup := false } k via) rec kvs)
      (emit (typeHASH :: varint kvs.length) >>= fun _ => rangeKeys { cfg with disableDedup := true } (kvs.map (·.1)) >>=
        encodePairs (fun k => encodeString { cfg with disableDedup := true } k via) rec' kvs) := by
    refine .bind (.same _) fun _ => .range rfl hord fun l hl => lean_pairs (fun k hk => ?_) (fun k hk => ?_)
    · obtain ⟨w, hw⟩ := Option.isSome_iff_exists.1 ((mapLookup_isSome k kvs).2 (hl k hk))
      exact lean_string (h k w hw).1
    · obtain ⟨w, hw⟩ := Option.isSome_iff_exists.1 ((mapLookup_isSome k kvs).2 (hl k hk))
      rw [hw]
      exact (h k w hw).2
  unfold encodeMp
  exact .ite (fun _ => .bind (.same _) fun _ => hrest) fun _ => hrest

omit hord in
theorem lean_ptr {inp : Heap} {rec rec' : Val → Bool → E Unit} {iface : Bool} {a : Addr}
    (hc : ∀ rn, LeanRuns N (rec (inp.cellAt a) rn) (rec' (inp.cellAt a) rn)) :
    LeanRuns N (encodePtr { cfg with disableDedup := false } inp rec iface a) (encodePtr { cfg with disableDedup := true } inp rec' iface a) := by
  unfold encodePtr
  dsimp only
  refine .ite (fun _ => hc false) fun _ => ?_
  have hg : getPointer { cfg with disableDedup := false } inp iface a = getPointer { cfg with disableDedup := true } inp iface a := rfl
  rw [hg]
  cases getPointer { cfg with disableDedup := true } inp iface a with
  | error e => exact .fail
  | ok p =>
    dsimp only
    have seen : ∀ o o' : Nat, o ≤ o' → LeanRuns N
        (emit (typeREFP :: varint o) >>= fun _ => setTrackFlag o) (emit (typeREFP :: varint o') >>= fun _ => setTrackFlag o') := by
      intro o o' ho
      refine .bind (.emit ?_) fun _ => .flag _ _
      rw [List.length_cons, List.length_cons]
      have := varint_length_mono ho
      omega
    have first : ∀ n n' : Nat, n ≤ n' → LeanRuns N
        (do
          emit [typeREFN]
          rememberPtr a n
          rec (inp.cellAt a) true
          if p ≠ 0 then rememberPtr p (n + 1))
        (do
          emit [typeREFN]
          rememberPtr a n'
          rec' (inp.cellAt a) true
          if p ≠ 0 then rememberPtr p (n' + 1)) := by
      intro n n' hn
      exact .bind (.same _) fun _ => .bind (.ptr _ hn) fun _ => .bind (hc true) fun _ =>
        .ite (fun _ => .ptr _ (Nat.succ_le_succ hn)) fun _ => .pure _
    refine .get (fun s s' hs => ?_) fun s b t e => ?_
    · have hf : (findPtr s a p = none ∧ findPtr s' a p = none) ∨
          ∃ o o', findPtr s a p = some o ∧ findPtr s' a p = some o' ∧ o ≤ o' := by
        unfold findPtr
        rcases hs.ptrs a with ⟨e, e'⟩ | ⟨o, o', e, e', ho⟩
        · rw [e, e']
          dsimp only
          by_cases hp : p = 0
          · rw [if_neg (by simpa using hp), if_neg (by simpa using hp)]; exact .inl ⟨rfl, rfl⟩
          · rw [if_pos hp, if_pos hp]; exact hs.ptrs p
        · rw [e, e']; exact .inr ⟨o, o', rfl, rfl, ho⟩
      rcases hf with ⟨e, e'⟩ | ⟨o, o', e, e', ho⟩
      · rw [e, e']; exact first _ _ hs.len
      · rw [e, e']; exact seen _ _ ho
    · cases hf : findPtr s a p with
      | none => rw [hf] at e; exact (first _ _ (Nat.le_refl _)).1 _ _ _ e
      | some o => rw [hf] at e; exact (seen o o (Nat.le_refl _)).1 _ _ _ e

/-- One level. -/
theorem lean_val {inp : Heap} {S : Val → Prop} (hS : ∀ u, S u → (∀ n, NameRoom cfg inp u n → N ≤ 2 ^ (7 * n)) ∧ ∀ w, Leads cfg inp u w → S w)
    {rec rec' : Option (Val → Bool → Bool → E Unit)}
    (hrec : (rec = none ∧ rec' = none) ∨
      ∃ f f', rec = some f ∧ rec' = some f' ∧ ∀ v rn, S v → LeanRuns N (f v false rn) (f' v false rn))
    (v : Val) : ∀ rn, S v → LeanRuns N (encodeVal { cfg with disableDedup := false } inp rec v false rn)
      (encodeVal { cfg with disableDedup := true } inp rec' v false rn) := by
  induction v with
  | obj cls r ih =>
    intro rn hv
    obtain ⟨h1, h2⟩ := hS _ hv
    unfold encodeVal
    exact .bind (.same _) fun _ => .bind (lean_bytes fun _ => h1 _ .object) fun _ => ih _ (h2 _ (.inr (.inl .obj)))
  | weak r ih =>
    intro rn hv
    obtain ⟨h1, h2⟩ := hS _ hv
    unfold encodeVal
    exact .bind (.same _) fun _ => ih _ (h2 _ (.inr (.inl .weak)))
  | marshaler cls res u ih =>
    intro rn hv
    obtain ⟨h1, h2⟩ := hS _ hv
    unfold encodeVal
    refine .ite (fun hd => ih _ (h2 _ (.inr (.inl (.under hd))))) fun hd => ?_
    cases res with
    | error n => exact .err
    | ok d =>
      have hd' : cfg.disableFreeze = false := by
        cases h : cfg.disableFreeze
        · rfl
        · exact (hd h).elim
      exact .bind (.same _) fun _ => .bind (lean_string fun _ => h1 _ (.method hd')) fun _ => .bind (.same _) fun _ =>
        .bind (.same _) fun _ => lean_bytes fun h => by cases h
  | slice p n =>
    intro rn hv
    obtain ⟨h1, h2⟩ := hS _ hv
    unfold encodeVal
    rcases hrec with ⟨rfl, rfl⟩ | ⟨f, f', rfl, rfl, hf⟩
    · exact .err
    · refine lean_arr _ fun w hw => ?_
      obtain ⟨i, hi, rfl⟩ := List.mem_map.1 hw
      exact hf _ _ (h2 _ (.inl (.elem (List.mem_range.1 hi))))
  | rslice p n =>
    intro rn hv
    obtain ⟨h1, h2⟩ := hS _ hv
    unfold encodeVal
    rcases hrec with ⟨rfl, rfl⟩ | ⟨f, f', rfl, rfl, hf⟩
    · exact .err
    · refine lean_arr _ fun w hw => ?_
      obtain ⟨i, hi, rfl⟩ := List.mem_map.1 hw
      exact hf _ _ (h2 _ (.inl (.relem (List.mem_range.1 hi))))
  | smap m =>
    intro rn hv
    obtain ⟨h1, h2⟩ := hS _ hv
    unfold encodeVal
    rcases hrec with ⟨rfl, rfl⟩ | ⟨f, f', rfl, rfl, hf⟩
    · exact .err
    · exact lean_mp hord _ _ fun k w hw => ⟨fun _ => h1 _ (.key hw), hf _ _ (h2 _ (.inl (.entry hw)))⟩
  | rmap m =>
    intro rn hv
    obtain ⟨h1, h2⟩ := hS _ hv
    unfold encodeVal
    rcases hrec with ⟨rfl, rfl⟩ | ⟨f, f', rfl, rfl, hf⟩
    · exact .err
    · exact lean_mp hord _ _ fun k w hw => ⟨fun hp => h1 _ (.rkey hp hw), hf _ _ (h2 _ (.inl (.rentry hw)))⟩
  | frozen cls d =>
    intro rn hv
    obtain ⟨h1, h2⟩ := hS _ hv
    unfold encodeVal
    rcases hrec with ⟨rfl, rfl⟩ | ⟨f, f', rfl, rfl, hf⟩
    · exact .err
    · refine lean_strct hord (h1 _ .freezeType) fun k g hg => ?_
      have := mapLookup_mem hg
      simp [effName] at this
      rcases this with ⟨rfl, rfl⟩ | ⟨rfl, rfl⟩
      · exact ⟨h1 _ .freezeField', hf _ _ (h2 _ (.inl .data))⟩
      · exact ⟨h1 _ .freezeField, hf _ _ (h2 _ (.inl .cls))⟩
  | strct name a =>
    intro rn hv
    obtain ⟨h1, h2⟩ := hS _ hv
    unfold encodeVal
    rcases hrec with ⟨rfl, rfl⟩ | ⟨f, f', rfl, rfl, hf⟩
    · exact .err
    · exact lean_strct hord (h1 _ .type) fun k g hg => ⟨h1 _ (.field hg), hf _ _ (h2 _ (.inl (.field hg)))⟩
  | ptr iface a =>
    intro rn hv
    obtain ⟨h1, h2⟩ := hS _ hv
    unfold encodeVal
    rcases hrec with ⟨rfl, rfl⟩ | ⟨f, f', rfl, rfl, hf⟩
    · exact .err
    · refine lean_ptr fun rn => hf _ _ (h2 _ ?_)
      cases iface with
      | true => exact .inr (.inr ⟨a, .inl rfl, rfl⟩)
      | false =>
        by_cases hp : PerlThing (inp.cellAt a)
        · exact .inl (.perl hp)
        · exact .inr (.inr ⟨a, .inr ⟨rfl, hp⟩, rfl⟩)
  | nilptr =>
    intro rn hv
    unfold encodeVal
    rcases hrec with ⟨rfl, rfl⟩ | ⟨f, f', rfl, rfl, hf⟩
    · exact .err
    · exact .same _
  | regexp pat mods =>
    intro rn hv
    unfold encodeVal
    exact .bind (.same _) fun _ => .bind (lean_bytes fun h => by cases h) fun _ => lean_bytes fun h => by cases h
  | _ =>
    intro rn hv
    unfold encodeVal
    first
      | exact .same _
      | exact .fail
      | exact lean_json
      | exact lean_string fun h => by cases h
      | exact lean_bytes fun h => by cases h

theorem lean_encode {inp : Heap} {S : Val → Prop} (hS : ∀ u, S u → (∀ n, NameRoom cfg inp u n → N ≤ 2 ^ (7 * n)) ∧ ∀ w, Leads cfg inp u w → S w) :
    ∀ (d : Nat) (v : Val) (rn : Bool), S v → LeanRuns N (encode { cfg with disableDedup := false } inp d v false rn)
      (encode { cfg with disableDedup := true } inp d v false rn)
  | 0, v, rn, hv => lean_val hord hS (.inl ⟨rfl, rfl⟩) v rn hv
  | 1, v, rn, hv => lean_val hord hS (.inl ⟨rfl, rfl⟩) v rn hv
  | d + 2, v, rn, hv => lean_val hord hS (.inr ⟨_, _, rfl, rfl, fun v rn hv => lean_encode hS (d + 1) v rn hv⟩) v rn hv

theorem lean_after {inp : Heap} {v : Val} {pre pre' w w' : Bytes} (hpre : pre.length ≤ pre'.length)
    (e : encodeAfter { cfg with disableDedup := false } inp pre v = .ok w)
    (e' : encodeAfter { cfg with disableDedup := true } inp pre' v = .ok w')
    (hN : pre.length + w.length ≤ N) (hr : RoomyNames cfg inp v N) :
    pre.length + w.length ≤ pre'.length + w'.length := by
  have main := lean_encode hord (N := N) (S := ReachesVal cfg inp v) (fun u hu => ⟨fun n hn => hr u n hu hn, fun w hw => .step hu hw⟩)
    (remainingRecursion cfg.maxRecursionDepth) v false .refl
  unfold encodeAfter at e e'
  rcases h : encode { cfg with disableDedup := false } inp (remainingRecursion cfg.maxRecursionDepth) v false false { buf := pre } with er | ⟨⟨⟩, t⟩
  · rw [h] at e; cases e
  · rcases h' : encode { cfg with disableDedup := true } inp (remainingRecursion cfg.maxRecursionDepth) v false false { buf := pre' } with
      er | ⟨⟨⟩, t'⟩
    · rw [h'] at e'; cases e'
    · rw [h] at e
      rw [h'] at e'
      cases e
      cases e'
      have h1 : pre.length ≤ t.buf.length := main.1 _ _ _ h
      rw [List.length_drop] at hN ⊢
      have h2 := (main.2 { buf := pre } { buf := pre' } _ _ _ _
        ⟨hpre, rfl, fun _ => .inl ⟨rfl, rfl⟩, (fun k o hk => by cases hk)⟩ h h' (by omega)).2.len
      rw [List.length_drop]
      omega

end Sereal
