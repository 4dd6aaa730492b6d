import Verif.Spec.Moved
/-
C76: encoding does the same in both memories.
-/
namespace Sereal

/-- The states of two runs: all but the addresses in ptrTable is equal. -/
def Paired (K : Addr → Addr → Prop) (s s' : EState) : Prop :=
  s.buf = s'.buf ∧ s.strTable = s'.strTable ∧ s.visits = s'.visits ∧ ∀ a b, K a b → s.ptrTable a = s'.ptrTable b

/-- Two actions do the same. -/
def PairedRuns (K : Addr → Addr → Prop) {α : Type} (x x' : E α) : Prop :=
  ∀ s s', Paired K s s' →
    (∃ a t t', x s = .ok (a, t) ∧ x' s' = .ok (a, t') ∧ Paired K t t') ∨ (∃ e, x s = .error e ∧ x' s' = .error e)

variable {V K : Addr → Addr → Prop}

theorem PairedRuns.pure {α : Type} (a : α) : PairedRuns K (Pure.pure a : E α) (Pure.pure a) := fun s s' hs => .inl ⟨a, s, s', rfl, rfl, hs⟩

theorem PairedRuns.bind {α β : Type} {x x' : E α} {f f' : α → E β} (hx : PairedRuns K x x') (hf : ∀ a, PairedRuns K (f a) (f' a)) :
    PairedRuns K (x >>= f) (x' >>= f') := by
  intro s s' hs
  rcases hx s s' hs with ⟨a, t, t', e, e', ht⟩ | ⟨er, e, e'⟩
  · rcases hf a t t' ht with ⟨b, u, u', e2, e2', hu⟩ | ⟨er, e2, e2'⟩
    · exact .inl ⟨b, u, u', by simp [Bind.bind, E.bind, e, e2], by simp [Bind.bind, E.bind, e', e2'], hu⟩
    · exact .inr ⟨er, by simp [Bind.bind, E.bind, e, e2], by simp [Bind.bind, E.bind, e', e2']⟩
  · exact .inr ⟨er, by simp [Bind.bind, E.bind, e], by simp [Bind.bind, E.bind, e']⟩

theorem PairedRuns.fail {α : Type} (e : Exn) : PairedRuns K (E.fail e : E α) (E.fail e) := fun _ _ _ => .inr ⟨e, rfl, rfl⟩

theorem PairedRuns.err {α : Type} (e : Err) : PairedRuns K (E.err e : E α) (E.err e) := fun _ _ _ => .inr ⟨.err e, rfl, rfl⟩

theorem PairedRuns.emit (bs : Bytes) : PairedRuns K (emit bs) (emit bs) := by
  intro s s' hs
  exact .inl ⟨(), _, _, rfl, rfl, congrArg (· ++ bs) hs.1, hs.2⟩

theorem PairedRuns.strs (k : Bytes) : PairedRuns K (rememberStr k) (rememberStr k) := by
  intro s s' hs
  refine .inl ⟨(), _, _, rfl, rfl, hs.1, ?_, hs.2.2⟩
  dsimp only
  rw [hs.1, hs.2.1]

theorem PairedRuns.ptrs {a b : Addr} (ho : ∀ {a b a' b'}, K a b → K a' b' → (a = a' ↔ b = b')) (hk : K a b) (n : Nat) :
    PairedRuns K (rememberPtr a n) (rememberPtr b n) := by
  intro s s' hs
  refine .inl ⟨(), _, _, rfl, rfl, hs.1, hs.2.1, hs.2.2.1, fun a' b' hk' => ?_⟩
  dsimp only
  by_cases e : a' = a
  · rw [if_pos e, if_pos ((ho hk' hk).1 e)]
  · rw [if_neg e, if_neg (fun e' => e ((ho hk' hk).2 e'))]
    exact hs.2.2.2 a' b' hk'

theorem PairedRuns.flag (n : Nat) : PairedRuns K (setTrackFlag n) (setTrackFlag n) := by
  intro s s' hs
  unfold setTrackFlag
  rw [← hs.1]
  by_cases e : n < s.buf.length
  · rw [if_pos e, if_pos e]
    exact .inl ⟨(), _, _, rfl, rfl, rfl, hs.2⟩
  · rw [if_neg e, if_neg e]
    exact .inr ⟨_, rfl, rfl⟩

theorem PairedRuns.range {cfg cfg' : ECfg} {ks ks' : List Bytes} (ho : ∀ n, cfg.ord n ks = cfg'.ord n ks') :
    PairedRuns K (rangeKeys cfg ks) (rangeKeys cfg' ks') := by
  intro s s' hs
  refine .inl ⟨cfg.ord s.visits ks, _, { s' with visits := s'.visits + 1 }, rfl, ?_, hs.1, hs.2.1, congrArg (· + 1) hs.2.2.1, hs.2.2.2⟩
  unfold rangeKeys
  rw [ho, hs.2.2.1]

/-- Reading the state. -/
theorem PairedRuns.get {α : Type} {f f' : EState → E α} (h : ∀ s s', Paired K s s' → PairedRuns K (f s) (f' s')) :
    PairedRuns K (E.get >>= f) (E.get >>= f') := fun s s' hs => h s s' hs s s' hs

theorem PairedRuns.ite {α : Type} {c : Prop} [Decidable c] {x x' y y' : E α} (h1 : c → PairedRuns K x x') (h2 : ¬ c → PairedRuns K y y') :
    PairedRuns K (if c then x else y) (if c then x' else y') := by
  by_cases e : c
  · rw [if_pos e, if_pos e]; exact h1 e
  · rw [if_neg e, if_neg e]; exact h2 e

variable {cfg : ECfg} {dp' : Addr → Addr}

theorem twins_string (s : Bytes) (ik : Bool) : PairedRuns K (encodeString cfg s ik) (encodeString { cfg with dataPtr := dp' } s ik) := by
  unfold encodeString
  refine .ite (fun _ => .get fun t t' ht => ?_) fun _ => .emit _
  rw [ht.2.1]
  split
  · exact .emit _
  · exact .bind (.strs _) fun _ => .emit _

theorem twins_bytes (s : Bytes) (ik : Bool) : PairedRuns K (encodeBytes cfg s ik) (encodeBytes { cfg with dataPtr := dp' } s ik) := by
  unfold encodeBytes
  refine .ite (fun _ => .get fun t t' ht => ?_) fun _ => .emit _
  rw [ht.2.1]
  split
  · exact .emit _
  · exact .bind (.strs _) fun _ => .emit _

theorem twins_json (s : Bytes) (ik : Bool) : PairedRuns K (encodeJsonNumber cfg s ik) (encodeJsonNumber { cfg with dataPtr := dp' } s ik) := by
  unfold encodeJsonNumber
  dsimp only
  split
  · exact .emit _
  · exact twins_string _ _
  · split
    · exact .emit _
    · exact twins_string _ _

theorem twins_elems {rec rec' : Val → E Unit} {vs vs' : List Val}
    (h : List.Forall₂ (fun v v' => PairedRuns K (rec v) (rec' v')) vs vs') : PairedRuns K (encodeElems rec vs) (encodeElems rec' vs') := by
  induction h with
  | nil => exact .pure _
  | cons h _ ih => exact .bind h fun _ => ih

theorem twins_pairs {key key' : Bytes → E Unit} {rec rec' : Val → E Unit} {kvs kvs' : List (Bytes × Val)}
    (hk : ∀ k, PairedRuns K (key k) (key' k))
    (h : ∀ k, PairedRuns K (rec ((mapLookup k kvs).getD .nil)) (rec' ((mapLookup k kvs').getD .nil))) (ks : List Bytes) :
    PairedRuns K (encodePairs key rec kvs ks) (encodePairs key' rec' kvs' ks) := by
  induction ks with
  | nil => exact .pure _
  | cons k ks ih => exact .bind (hk k) fun _ => .bind (h k) fun _ => ih

/-- Two fields that differ in their values only, which are treated alike. -/
def FieldTwins (P : Val → Val → Prop) (f f' : Field) : Prop :=
  f.name = f'.name ∧ f.tag = f'.tag ∧ f.exported = f'.exported ∧ P f.val f'.val

def TagTwins (P : Val → Val → Prop) (p p' : Bytes × Field) : Prop := p.1 = p'.1 ∧ FieldTwins P p.2 p'.2

theorem mapInsert_twins {P : Val → Val → Prop} {k : Bytes} {f f' : Field} (hf : FieldTwins P f f') {m m' : List (Bytes × Field)}
    (h : List.Forall₂ (TagTwins P) m m') : List.Forall₂ (TagTwins P) (mapInsert k f m) (mapInsert k f' m') := by
  induction h with
  | nil => exact .cons ⟨rfl, hf⟩ .nil
  | @cons p p' m m' h h' ih =>
    obtain ⟨k1, g⟩ := p
    obtain ⟨k2, g'⟩ := p'
    have e : k1 = k2 := h.1
    subst e
    unfold mapInsert
    by_cases e : k1 = k
    · rw [if_pos e, if_pos e]; exact .cons ⟨rfl, hf⟩ h'
    · rw [if_neg e, if_neg e]; exact .cons h ih

theorem structTags_twins {P : Val → Val → Prop} {fs fs' : List Field} (h : List.Forall₂ (FieldTwins P) fs fs') :
    ∀ {m m' : List (Bytes × Field)}, List.Forall₂ (TagTwins P) m m' →
      List.Forall₂ (TagTwins P) (structTags fs m) (structTags fs' m') := by
  induction h with
  | nil => exact fun h => h
  | @cons f f' fs fs' hf _ ih =>
    intro m m' hm
    unfold structTags
    rw [← hf.2.1, ← hf.2.2.1, ← hf.1]
    split
    · exact ih hm
    · split
      · split
        · exact ih hm
        · exact ih (mapInsert_twins hf hm)
      · exact ih (mapInsert_twins hf hm)

theorem tags_keys {P : Val → Val → Prop} {m m' : List (Bytes × Field)} (h : List.Forall₂ (TagTwins P) m m') :
    m.map (·.1) = m'.map (·.1) := by
  induction h with
  | nil => rfl
  | cons h _ ih => rw [List.map_cons, List.map_cons, ih, h.1]

theorem tags_lookup {P : Val → Val → Prop} {m m' : List (Bytes × Field)} (h : List.Forall₂ (TagTwins P) m m') (k : Bytes) :
    (mapLookup k m = none ∧ mapLookup k m' = none) ∨
      ∃ f f', mapLookup k m = some f ∧ mapLookup k m' = some f' ∧ FieldTwins P f f' := by
  induction h with
  | nil => exact .inl ⟨rfl, rfl⟩
  | @cons p p' m m' h h' ih =>
    obtain ⟨k1, g⟩ := p
    obtain ⟨k2, g'⟩ := p'
    have e : k1 = k2 := h.1
    subst e
    unfold mapLookup
    by_cases e : k1 = k
    · rw [if_pos e, if_pos e]; exact .inr ⟨g, g', rfl, rfl, h.2⟩
    · rw [if_neg e, if_neg e]; exact ih

theorem twins_fields {rec rec' : Val → E Unit} {m m' : List (Bytes × Field)}
    (h : List.Forall₂ (TagTwins fun v v' => PairedRuns K (rec v) (rec' v')) m m') (ks : List Bytes) :
    PairedRuns K (encodeFields cfg rec m ks) (encodeFields { cfg with dataPtr := dp' } rec' m' ks) := by
  induction ks with
  | nil => exact .pure _
  | cons k ks ih =>
    refine .bind (twins_string _ _) fun _ => ?_
    rcases tags_lookup h k with ⟨e, e'⟩ | ⟨f, f', e, e', hf⟩
    · rw [e, e']
      exact ih
    · rw [e, e']
      dsimp only
      rw [← hf.2.2.1]
      refine .ite (fun _ => .bind (.fail _) fun _ => ih) fun _ => .bind hf.2.2.2 fun _ => ih

theorem twins_strct {rec rec' : Val → E Unit} {name : Bytes} {fs fs' : List Field}
    (h : List.Forall₂ (FieldTwins fun v v' => PairedRuns K (rec v) (rec' v')) fs fs') :
    PairedRuns K (encodeStrct cfg rec name fs) (encodeStrct { cfg with dataPtr := dp' } rec' name fs') := by
  unfold encodeStrct
  have ht := structTags_twins h (m := []) (m' := []) .nil
  have hl := ht.length_eq
  have hk := tags_keys ht
  dsimp only
  rw [← hl, ← hk]
  have hrest := PairedRuns.bind (.emit (K := K) (typeHASH :: varint (structTags fs []).length)) fun _ =>
    PairedRuns.bind (PairedRuns.range (cfg := cfg) (cfg' := { cfg with dataPtr := dp' }) (ks := (structTags fs []).map (·.1)) fun _ => rfl)
      fun ks => twins_fields (cfg := cfg) (dp' := dp') ht ks
  exact .bind (.emit _) fun _ => .bind (twins_bytes _ _) fun _ => .ite (fun _ => .bind (.emit _) fun _ => hrest) fun _ => hrest

theorem twins_arr {rec rec' : Val → E Unit} {vs vs' : List Val} (rn : Bool)
    (h : List.Forall₂ (fun v v' => PairedRuns K (rec v) (rec' v')) vs vs') :
    PairedRuns K (encodeArr cfg rec vs rn) (encodeArr { cfg with dataPtr := dp' } rec' vs' rn) := by
  unfold encodeArr
  rw [← h.length_eq]
  have hrest := PairedRuns.bind (.emit (K := K) (typeARRAY :: varint vs.length)) fun _ => twins_elems h
  exact .ite (fun _ => .bind (.emit _) fun _ => hrest) fun _ => hrest

theorem twins_mp {rec rec' : Val → E Unit} {kvs kvs' : List (Bytes × Val)} (rn vs : Bool) (hn : kvs.length = kvs'.length)
    (ho : ∀ n, cfg.ord n (kvs.map (·.1)) = cfg.ord n (kvs'.map (·.1)))
    (h : ∀ k, PairedRuns K (rec ((mapLookup k kvs).getD .nil)) (rec' ((mapLookup k kvs').getD .nil))) :
    PairedRuns K (encodeMp cfg rec kvs rn vs) (encodeMp { cfg with dataPtr := dp' } rec' kvs' rn vs) := by
  unfold encodeMp
  rw [← hn]
  have hrest := PairedRuns.bind (.emit (K := K) (typeHASH :: varint kvs.length)) fun _ =>
    PairedRuns.bind (PairedRuns.range (cfg := cfg) (cfg' := { cfg with dataPtr := dp' }) ho) fun ks =>
      twins_pairs (fun k => twins_string (cfg := cfg) (dp' := dp') k vs) h ks
  exact .ite (fun _ => .bind (.emit _) fun _ => hrest) fun _ => hrest

variable {h h' : Heap} (hr : Relocation cfg.ord h cfg.dataPtr h' dp' V K)
include hr

omit hr in
theorem MovedTo.perl {v v' : Val} (hm : MovedTo V K v v') : isPerlStruct v = isPerlStruct v' := by
  cases hm <;> rfl

theorem twins_getPointer {a a' : Addr} (iface : Bool) (ha : V a a') :
    (∃ e, getPointer cfg h iface a = .error e ∧ getPointer { cfg with dataPtr := dp' } h' iface a' = .error e) ∨
      ∃ p p', getPointer cfg h iface a = .ok p ∧ getPointer { cfg with dataPtr := dp' } h' iface a' = .ok p' ∧ K p p' := by
  have hm := hr.cell ha
  have hd := hr.data ha
  unfold getPointer
  generalize h.cellAt a = v at hm
  generalize h'.cellAt a' = v' at hm
  cases hm with
  | flat hf =>
    cases v <;> first
      | exact hf.elim
      | exact .inr ⟨_, _, rfl, rfl, hr.zero⟩
      | exact .inr ⟨_, _, rfl, rfl, hd⟩
      | (cases iface
         · exact .inr ⟨_, _, rfl, rfl, hd⟩
         · exact .inl ⟨_, rfl, rfl⟩)
  | slice hp _ => exact .inr ⟨_, _, rfl, rfl, hp⟩
  | rslice hp _ => exact .inr ⟨_, _, rfl, rfl, hp⟩
  | smap hp => exact .inr ⟨_, _, rfl, rfl, hr.key hp⟩
  | rmap hp => exact .inr ⟨_, _, rfl, rfl, hr.key hp⟩
  | ptr hp => exact .inr ⟨_, _, rfl, rfl, hr.key hp⟩
  | strct _ => exact .inr ⟨_, _, rfl, rfl, hr.zero⟩
  | obj _ => exact .inr ⟨_, _, rfl, rfl, hr.zero⟩
  | weak _ => exact .inr ⟨_, _, rfl, rfl, hr.zero⟩
  | marshaler _ => exact .inr ⟨_, _, rfl, rfl, hr.zero⟩

theorem twins_ptr {rec rec' : Val → Bool → E Unit} {a a' : Addr} (iface : Bool) (ha : V a a')
    (hc : ∀ rn, PairedRuns K (rec (h.cellAt a) rn) (rec' (h'.cellAt a') rn)) :
    PairedRuns K (encodePtr cfg h rec iface a) (encodePtr { cfg with dataPtr := dp' } h' rec' iface a') := by
  unfold encodePtr
  dsimp only
  rw [← MovedTo.perl (hr.cell ha)]
  refine .ite (fun _ => hc false) fun _ => ?_
  rcases twins_getPointer hr iface ha with ⟨e, e1, e2⟩ | ⟨p, p', e1, e2, hp⟩
  · rw [e1, e2]
    exact .fail _
  · rw [e1, e2]
    dsimp only
    refine .get fun s s' hs => ?_
    have hz := hr.one hp hr.zero
    have hf : findPtr s a p = findPtr s' a' p' := by
      unfold findPtr
      rw [hs.2.2.2 _ _ (hr.key ha), hs.2.2.2 _ _ hp]
      split
      · rfl
      · by_cases e : p = 0
        · rw [if_neg (by simpa using e), if_neg (by simpa using hz.1 e)]
        · rw [if_pos e, if_pos (fun e' => e (hz.2 e'))]
    rw [hf, hs.1]
    split
    · exact .bind (.emit _) fun _ => .flag _
    · refine .bind (.emit _) fun _ => .bind (.ptrs hr.one (hr.key ha) _) fun _ => .bind (hc true) fun _ => ?_
      by_cases e : p = 0
      · rw [if_neg (by simpa using e), if_neg (by simpa using hz.1 e)]
        exact .pure _
      · rw [if_pos e, if_pos (fun e' => e (hz.2 e'))]
        exact .ptrs hr.one hp _

theorem sliceVals_twins {P : Val → Val → Prop} {p p' n : Nat} (hv : ∀ i, i < n → V (p + i) (p' + i))
    (hP : ∀ {v v'}, MovedTo V K v v' → P v v') : List.Forall₂ P (sliceVals h p n) (sliceVals h' p' n) := by
  unfold sliceVals
  rw [List.forall₂_map_left_iff, List.forall₂_map_right_iff, List.forall₂_same]
  intro i hi
  exact hP (hr.cell (hv i (List.mem_range.1 hi)))

/-- One level. -/
theorem twins_val {rec rec' : Option (Val → Bool → Bool → E Unit)}
    (hrec : (rec = none ∧ rec' = none) ∨
      ∃ f f', rec = some f ∧ rec' = some f' ∧ ∀ {v v'}, MovedTo V K v v' → ∀ ik rn, PairedRuns K (f v ik rn) (f' v' ik rn))
    {v v' : Val} (hm : MovedTo V K v v') :
    ∀ ik rn, PairedRuns K (encodeVal cfg h rec v ik rn) (encodeVal { cfg with dataPtr := dp' } h' rec' v' ik rn) := by
  induction hm with
  | @flat v hf =>
    intro ik rn
    cases v <;> unfold encodeVal <;> first
      | exact hf.elim
      | exact .emit _
      | exact .fail _
      | exact twins_json _ _
      | exact twins_string _ _
      | exact twins_bytes _ _
      | exact .bind (.emit _) fun _ => .bind (twins_bytes _ _) fun _ => twins_bytes _ _
      | (rcases hrec with ⟨e, e'⟩ | ⟨f, f', e, e', hf'⟩
         · rw [e, e']; exact .err _
         · rw [e, e']
           first
             | exact .emit _
             | exact twins_strct (.cons ⟨rfl, rfl, rfl, hf' (.flat (v := .str _) trivial) _ _⟩ (.cons ⟨rfl, rfl, rfl, hf' (.flat (v := .bin _) trivial) _ _⟩ .nil)))
  | slice _ hv =>
    intro ik rn
    unfold encodeVal
    rcases hrec with ⟨e, e'⟩ | ⟨f, f', e, e', hf⟩
    · rw [e, e']; exact .err _
    · rw [e, e']; exact twins_arr _ (sliceVals_twins hr hv fun hm => hf hm _ _)
  | rslice _ hv =>
    intro ik rn
    unfold encodeVal
    rcases hrec with ⟨e, e'⟩ | ⟨f, f', e, e', hf⟩
    · rw [e, e']; exact .err _
    · rw [e, e']; exact twins_arr _ (sliceVals_twins hr hv fun hm => hf hm _ _)
  | smap hv =>
    intro ik rn
    unfold encodeVal
    rcases hrec with ⟨e, e'⟩ | ⟨f, f', e, e', hf⟩
    · rw [e, e']; exact .err _
    · rw [e, e']; exact twins_mp _ _ (hr.size hv) (hr.order hv) fun k => hf (hr.entry hv k) _ _
  | rmap hv =>
    intro ik rn
    unfold encodeVal
    rcases hrec with ⟨e, e'⟩ | ⟨f, f', e, e', hf⟩
    · rw [e, e']; exact .err _
    · rw [e, e']; exact twins_mp _ _ (hr.size hv) (hr.order hv) fun k => hf (hr.entry hv k) _ _
  | strct hv =>
    intro ik rn
    unfold encodeVal
    rcases hrec with ⟨e, e'⟩ | ⟨f, f', e, e', hf⟩
    · rw [e, e']; exact .err _
    · rw [e, e']
      refine twins_strct ((hr.fields hv).imp fun g g' hg => ⟨hg.1, hg.2.1, hg.2.2.1, hf hg.2.2.2 _ _⟩)
  | ptr hv =>
    intro ik rn
    unfold encodeVal
    rcases hrec with ⟨e, e'⟩ | ⟨f, f', e, e', hf⟩
    · rw [e, e']; exact .err _
    · rw [e, e']; exact twins_ptr hr _ hv fun rn => hf (hr.cell hv) _ _
  | obj _ ih =>
    intro ik rn
    unfold encodeVal
    exact .bind (.emit _) fun _ => .bind (twins_bytes _ _) fun _ => ih _ _
  | weak _ ih =>
    intro ik rn
    unfold encodeVal
    exact .bind (.emit _) fun _ => ih _ _
  | @marshaler _ res _ _ _ ih =>
    intro ik rn
    unfold encodeVal
    refine .ite (fun _ => ih _ _) fun _ => ?_
    cases res with
    | error n => exact .err _
    | ok d =>
      exact .bind (.emit _) fun _ => .bind (twins_string _ _) fun _ => .bind (.emit _) fun _ => .bind (.emit _) fun _ => twins_bytes _ _

theorem twins_encode : ∀ (d : Nat) {v v' : Val}, MovedTo V K v v' → ∀ ik rn,
    PairedRuns K (encode cfg h d v ik rn) (encode { cfg with dataPtr := dp' } h' d v' ik rn)
  | 0, _, _, hm, ik, rn => twins_val hr (.inl ⟨rfl, rfl⟩) hm ik rn
  | 1, _, _, hm, ik, rn => twins_val hr (.inl ⟨rfl, rfl⟩) hm ik rn
  | d + 2, _, _, hm, ik, rn => twins_val hr (.inr ⟨_, _, rfl, rfl, fun hm ik rn => twins_encode (d + 1) hm ik rn⟩) hm ik rn

theorem encodeAfter_moved {v v' : Val} (hm : MovedTo V K v v') (pre : Bytes) :
    encodeAfter cfg h pre v = encodeAfter { cfg with dataPtr := dp' } h' pre v' := by
  unfold encodeAfter
  rcases twins_encode hr (remainingRecursion cfg.maxRecursionDepth) hm false false { buf := pre } { buf := pre }
      ⟨rfl, rfl, rfl, fun _ _ _ => rfl⟩ with ⟨a, t, t', e, e', ht⟩ | ⟨er, e, e'⟩
  · rw [e, e']
    dsimp only
    rw [ht.1]
  · rw [e, e']

end Sereal
