import Verif.Proof.EmitMain
import Verif.Proof.TypedRound
import Verif.Spec.Graph
/-
What Marshal writes for values with shared and cyclic pointers to structs: the layout of the bytes, together
with the positions at which the pointers were first met.
-/
namespace Sereal

/-- The bytes for a value without parts. -/
def leafBytes : Val → Option Bytes
  | .bool b | .nbool b => some [if b then typeTRUE else typeFALSE]
  | .int _ i => some (encodeInt true i)
  | .uint _ n => some (encodeInt false n.toInt64)
  | .nint k i => some (encodeInt (k = .int) i)
  | .f32 u | .nf32 u => some (encodeFloat u)
  | .f64 u | .nf64 u => some (encodeDouble u)
  | .str s | .nstr s => some (strItem s)
  | .bin s => some (binItem s)
  | .nilptr => some [typeREFN, typeUNDEF]
  | _ => none

/-- What is at a position. -/
inductive LJob
  | item (v : Val)
  | elems (vs : List Val)
  | pairs (kvs : List (Bytes × Val))

/-- The pointers met so far, by the position of the REFN tag written for them. -/
abbrev Own := Nat → Option Nat

/-- One more. -/
def Own.put (own : Own) (i a : Nat) : Own := fun o => if o = i then some a else own o

/-- OBJECT, the name, perhaps REFN, HASH and the number of fields. -/
def StrctHead (pc : Bool) (B : Bytes) (name : Bytes) (n i p : Nat) : Prop :=
  ∃ k, Span B i [typeOBJECT] (i + 1) ∧ Strish wrtDialect B false (i + 1) name k ∧
    Span B k ((if pc then [typeREFN] else []) ++ typeHASH :: varint n) p

/-- The keys and values written for a struct. -/
def Entries (fs : List Field) (kvs : List (Bytes × Val)) : Prop :=
  (kvs.map Prod.fst).Nodup ∧ (∀ k, k ∈ kvs.map Prod.fst ↔ k ∈ (fieldEntries fs).map Prod.fst) ∧
  ∀ k v, (k, v) ∈ kvs → lastLookup k (fieldEntries fs) = some v

/-- The keys and values written for a map. -/
def Listed (kvs0 kvs : List (Bytes × Val)) : Prop :=
  (kvs.map Prod.fst).Perm (kvs0.map Prod.fst) ∧ ∀ k v, (k, v) ∈ kvs → v = (mapLookup k kvs0).getD .nil

/-- `Lay c inp B job i own j own'`: from `i` to `j`, `B` holds what the encoder writes for `job`. -/
inductive Lay (c : ECfg) (inp : Heap) (B : Bytes) : LJob → Nat → Own → Nat → Own → Prop
  | leaf {v w i j own} : leafBytes v = some w → Span B i w j → Lay c inp B (.item v) i own j own
  | ptr {a name fa b n p kvs i j own own'} : B[i]? = some b → b.toNat % 128 = 0x28 → (∀ o, own o ≠ some a) →
      inp.cellAt a = .strct name fa → StrctHead c.perlCompat B name n (i + 1) p → kvs.length = n →
      Entries (inp.fieldsAt fa) kvs → Lay c inp B (.pairs kvs) p (own.put i a) j own' →
      Lay c inp B (.item (.ptr false a)) i own j own'
  | again {a o b i j own} : Span B i (typeREFP :: varint o) j → own o = some a → B[o]? = some b → 128 ≤ b.toNat → o < i →
      Lay c inp B (.item (.ptr false a)) i own j own
  | strct {name fa n p kvs i j own own'} : StrctHead c.perlCompat B name n i p → kvs.length = n →
      Entries (inp.fieldsAt fa) kvs → Lay c inp B (.pairs kvs) p own j own' →
      Lay c inp B (.item (.strct name fa)) i own j own'
  | slice {v q n p i j own own'} : IsSlice v q n →
      Span B i ((if c.perlCompat then [typeREFN] else []) ++ typeARRAY :: varint n) p →
      Lay c inp B (.elems (sliceVals inp q n)) p own j own' → Lay c inp B (.item v) i own j own'
  | map {v m n p kvs i j own own'} : IsMap v m →
      Span B i ((if c.perlCompat then [typeREFN] else []) ++ typeHASH :: varint n) p → kvs.length = n →
      Listed (inp.mapAt m) kvs → Lay c inp B (.pairs kvs) p own j own' → Lay c inp B (.item v) i own j own'
  | elemsNil {i own} : Lay c inp B (.elems []) i own i own
  | elemsCons {v vs i k j own own' own''} : Lay c inp B (.item v) i own k own' → Lay c inp B (.elems vs) k own' j own'' →
      Lay c inp B (.elems (v :: vs)) i own j own''
  | pairsNil {i own} : Lay c inp B (.pairs []) i own i own
  | pairsCons {key v kvs i x k j own own' own''} : Strish wrtDialect B false i key x → Lay c inp B (.item v) x own k own' →
      Lay c inp B (.pairs kvs) k own' j own'' → Lay c inp B (.pairs ((key, v) :: kvs)) i own j own''

/-- The pointer table holds the pointers met so far. -/
def OwnInv (s : EState) (own : Own) : Prop := ∀ κ o, s.ptrTable κ = some o ↔ own o = some κ

variable {c : ECfg} {inp : Heap} {base : Nat}

/-- `x` writes `job`. -/
def LayEm (c : ECfg) (inp : Heap) (base : Nat) (x : E Unit) (job : LJob) : Prop :=
  ∀ s s' g own, EInv c inp base s g → OwnInv s own → x s = .ok ((), s') →
    ∃ g' own', OwnInv s' own' ∧ Step c inp base (fun _ _ => True) s s' g g'
      (fun B _ _ => g'.raw.length ≤ maxSize → Lay c inp B job g.raw.length own g'.raw.length own')

theorem lay_more {s : EState} {g : Gh} (h : EInv c inp base s g) (w : Bytes) :
    Step c inp base (fun _ _ => True) s { s with buf := s.buf ++ w } g (g.more w)
      (fun B _ _ => Span B g.raw.length w (g.more w).raw.length) :=
  ((step_more h w).weaken (fun _ _ hf => hf.elim)).mono (fun _ _ _ h => h.2)

theorem encodeString_ptrs {k : Bytes} {b : Bool} {s s' : EState} (h : encodeString c k b s = .ok ((), s')) :
    s'.ptrTable = s.ptrTable := by
  unfold encodeString at h
  split at h
  · obtain ⟨st, s0, h0, h2⟩ := E.bind_ok.1 h
    clear h
    obtain ⟨rfl, rfl⟩ := E.get_ok.1 h0
    cases ht : s0.strTable k with
    | some o => rw [ht] at h2; rw [emit_ok.1 h2]
    | none =>
      rw [ht] at h2
      obtain ⟨_, s1, h1, h2⟩ := E.bind_ok.1 h2
      rw [emit_ok.1 h2]
      unfold rememberStr at h1; cases h1; rfl
  · rw [emit_ok.1 h]

theorem encodeBytes_ptrs {k : Bytes} {b : Bool} {s s' : EState} (h : encodeBytes c k b s = .ok ((), s')) :
    s'.ptrTable = s.ptrTable := by
  unfold encodeBytes at h
  split at h
  · obtain ⟨st, s0, h0, h2⟩ := E.bind_ok.1 h
    clear h
    obtain ⟨rfl, rfl⟩ := E.get_ok.1 h0
    cases ht : s0.strTable k with
    | some o => rw [ht] at h2; rw [emit_ok.1 h2]
    | none =>
      rw [ht] at h2
      obtain ⟨_, s1, h1, h2⟩ := E.bind_ok.1 h2
      rw [emit_ok.1 h2]
      unfold rememberStr at h1; cases h1; rfl
  · rw [emit_ok.1 h]

theorem layLeaf {v : Val} {w : Bytes} (h : leafBytes v = some w) : LayEm c inp base (emit w) (.item v) := by
  intro s s' g own hi ho he
  obtain rfl := emit_ok.1 he
  exact ⟨g.more w, own, ho, (lay_more hi w).mono fun B _ _ hs _ => .leaf h hs⟩

theorem layElems {rec : Val → E Unit} :
    ∀ (vs : List Val), (∀ v ∈ vs, LayEm c inp base (rec v) (.item v)) → LayEm c inp base (encodeElems rec vs) (.elems vs)
  | [], _ => by
    intro s s' g own hi ho he
    obtain ⟨_, rfl⟩ := E.pure_ok.1 he
    exact ⟨g, own, ho, (Step.refl hi).mono fun B _ _ _ _ => .elemsNil⟩
  | v :: vs, hrec => by
    intro s s' g own hi ho he
    obtain ⟨_, s1, h1, h2⟩ := E.bind_ok.1 he
    obtain ⟨g1, own1, ho1, st1⟩ := hrec v (by simp) s s1 g own hi ho h1
    obtain ⟨g2, own2, ho2, st2⟩ := layElems vs (fun v hv => hrec v (by simp [hv])) s1 s' g1 own1 st1.inv ho1 h2
    refine ⟨g2, own2, ho2, (st1.comp st2).mono ?_⟩
    rintro B T T' ⟨_, h1, h2⟩ hl
    exact .elemsCons (h1 (Nat.le_trans st2.grows.le hl)) (h2 hl)

theorem layPairs {rec : Val → E Unit} (b : Bool) (kvs : List (Bytes × Val)) :
    ∀ (ks : List Bytes), (∀ k ∈ ks, LayEm c inp base (rec ((mapLookup k kvs).getD .nil)) (.item ((mapLookup k kvs).getD .nil))) →
      LayEm c inp base (encodePairs (fun k => encodeString c k b) rec kvs ks)
        (.pairs (ks.map fun k => (k, (mapLookup k kvs).getD .nil)))
  | [], _ => by
    intro s s' g own hi ho he
    obtain ⟨_, rfl⟩ := E.pure_ok.1 he
    exact ⟨g, own, ho, (Step.refl hi).mono fun B _ _ _ _ => .pairsNil⟩
  | k :: ks, hrec => by
    intro s s' g own hi ho he
    obtain ⟨_, s0, h0, he⟩ := E.bind_ok.1 he
    obtain ⟨_, s1, h1, h2⟩ := E.bind_ok.1 he
    obtain ⟨g0, st0, hk0⟩ := encKey_string k b s s0 g hi h0
    obtain ⟨g1, own1, ho1, st1⟩ := hrec k (by simp) s0 s1 g0 own st0.inv
      (by intro κ o; rw [encodeString_ptrs h0]; exact ho κ o) h1
    obtain ⟨g2, own2, ho2, st2⟩ := layPairs b kvs ks (fun v hv => hrec v (by simp [hv])) s1 s' g1 own1 st1.inv ho1 h2
    refine ⟨g2, own2, ho2, (((st0.weaken (fun _ _ hf => hf.elim)).comp st1).comp st2).mono ?_⟩
    rintro B T T' ⟨_, ⟨_, h0, h1⟩, h2⟩ hl
    have hl1 := Nat.le_trans st2.grows.le hl
    have hl0 := Nat.le_trans st1.grows.le hl1
    exact .pairsCons (h0.2 (Nat.le_trans hk0 hl0)) (h1 hl1) (h2 hl)

theorem layFields {rec : Val → E Unit} (tags : List (Bytes × Field)) :
    ∀ (ks : List Bytes), (∀ k ∈ ks, k ∈ tags.map Prod.fst) →
      (∀ k ∈ ks, ∀ f, mapLookup k tags = some f → LayEm c inp base (rec f.val) (.item f.val)) →
      LayEm c inp base (encodeFields c rec tags ks)
        (.pairs (ks.map fun k => (k, ((mapLookup k tags).map Field.val).getD .nil)))
  | [], _, _ => by
    intro s s' g own hi ho he
    obtain ⟨_, rfl⟩ := E.pure_ok.1 he
    exact ⟨g, own, ho, (Step.refl hi).mono fun B _ _ _ _ => .pairsNil⟩
  | k :: ks, hks, hrec => by
    intro s s' g own hi ho he
    obtain ⟨_, s0, h0, he⟩ := E.bind_ok.1 he
    have hk := (mapLookup_isSome k tags).2 (hks k (by simp))
    obtain ⟨f, hf⟩ := Option.isSome_iff_exists.1 hk
    rw [hf] at he
    dsimp only at he
    cases hex : f.exported with
    | false =>
      rw [hex] at he
      obtain ⟨_, _, h1, _⟩ := E.bind_ok.1 he
      cases h1
    | true =>
      rw [hex] at he
      obtain ⟨_, s1, h1, h2⟩ := E.bind_ok.1 he
      obtain ⟨g0, st0, hk0⟩ := encKey_string k true s s0 g hi h0
      obtain ⟨g1, own1, ho1, st1⟩ := hrec k (by simp) f hf s0 s1 g0 own st0.inv
        (by intro κ o; rw [encodeString_ptrs h0]; exact ho κ o) h1
      obtain ⟨g2, own2, ho2, st2⟩ := layFields tags ks (fun v hv => hks v (by simp [hv])) (fun v hv => hrec v (by simp [hv]))
        s1 s' g1 own1 st1.inv ho1 h2
      refine ⟨g2, own2, ho2, (((st0.weaken (fun _ _ hf => hf.elim)).comp st1).comp st2).mono ?_⟩
      rintro B T T' ⟨_, ⟨_, h0, h1⟩, h2⟩ hl
      have hl1 := Nat.le_trans st2.grows.le hl
      have hl0 := Nat.le_trans st1.grows.le hl1
      rw [List.map_cons, hf]
      exact .pairsCons (h0.2 (Nat.le_trans hk0 hl0)) (h1 hl1) (h2 hl)

theorem EInv.visit {s : EState} {g : Gh} (h : EInv c inp base s g) :
    EInv c inp base { s with visits := s.visits + 1 } g :=
  ⟨h.base_le, h.len, h.agree, h.flags, h.range, h.strs, h.ptrs⟩

theorem Step.unvisit {X : Addr → Nat → Prop} {s s' : EState} {g g' : Gh} {P : Bytes → Seen → Seen → Prop}
    (h : Step c inp base X { s with visits := s.visits + 1 } s' g g' P) : Step c inp base X s s' g g' P :=
  ⟨h.inv, h.grows, h.new, h.reads⟩

theorem rangeKeys_ok {ks ks' : List Bytes} {s s' : EState} (h : rangeKeys c ks s = .ok (ks', s')) :
    ks' = c.ord s.visits ks ∧ s' = { s with visits := s.visits + 1 } := by
  unfold rangeKeys at h; cases h; exact ⟨rfl, rfl⟩

/-- An optional REFN in front of something. -/
theorem optEmit {b : Bool} {w : Bytes} {x : E Unit} {s s' : EState}
    (h : (do if b then emit [typeREFN]
             emit w
             x : E Unit) s = .ok ((), s')) :
    x { s with buf := s.buf ++ ((if b then [typeREFN] else []) ++ w) } = .ok ((), s') := by
  cases b with
  | true =>
    obtain ⟨_, s1, h1, h2⟩ := E.bind_ok.1 h
    obtain ⟨_, s2, h2, h3⟩ := E.bind_ok.1 h2
    rw [emit_ok.1 h1] at h2
    rw [emit_ok.1 h2] at h3
    simpa using h3
  | false =>
    obtain ⟨_, s2, h2, h3⟩ := E.bind_ok.1 h
    rw [emit_ok.1 h2] at h3
    simpa using h3

theorem layArr {rec : Val → E Unit} {v : Val} {q n : Nat} (hv : IsSlice v q n)
    (hrec : ∀ u ∈ sliceVals inp q n, LayEm c inp base (rec u) (.item u)) :
    LayEm c inp base (encodeArr c rec (sliceVals inp q n) false) (.item v) := by
  intro s s' g own hi ho he
  unfold encodeArr at he
  rw [show (c.perlCompat && !false) = c.perlCompat by simp] at he
  have he := optEmit he
  have st1 := lay_more hi ((if c.perlCompat then [typeREFN] else []) ++ typeARRAY :: varint (sliceVals inp q n).length)
  obtain ⟨g2, own2, ho2, st2⟩ := layElems _ hrec _ s' _ own st1.inv ho he
  refine ⟨g2, own2, ho2, (st1.comp st2).mono ?_⟩
  rintro B T T' ⟨_, h1, h2⟩ hl
  have hn : (sliceVals inp q n).length = n := by simp [sliceVals]
  have h2 := h2 hl
  rw [hn] at h1 h2
  exact .slice hv h1 h2

theorem layMap {rec : Val → E Unit} {v : Val} {m : Nat} (b : Bool) (hv : IsMap v m) (hord : ∀ n ks, (c.ord n ks).Perm ks)
    (hrec : ∀ k ∈ (inp.mapAt m).map Prod.fst,
      LayEm c inp base (rec ((mapLookup k (inp.mapAt m)).getD .nil)) (.item ((mapLookup k (inp.mapAt m)).getD .nil))) :
    LayEm c inp base (encodeMp c rec (inp.mapAt m) false b) (.item v) := by
  intro s s' g own hi ho he
  unfold encodeMp at he
  rw [show (c.perlCompat && !false) = c.perlCompat by simp] at he
  have he := optEmit he
  have st1 := lay_more hi ((if c.perlCompat then [typeREFN] else []) ++ typeHASH :: varint (inp.mapAt m).length)
  obtain ⟨ks, s2, h2, h3⟩ := E.bind_ok.1 he
  obtain ⟨hks, rfl⟩ := rangeKeys_ok h2
  have hp : ks.Perm ((inp.mapAt m).map Prod.fst) := by rw [hks]; exact hord _ _
  obtain ⟨g2, own2, ho2, st2⟩ := layPairs b (inp.mapAt m) ks (fun k hk => hrec k (hp.mem_iff.1 hk)) _ s' _ own st1.inv.visit ho h3
  have st2' := st2.unvisit
  refine ⟨g2, own2, ho2, (st1.comp st2').mono ?_⟩
  rintro B T T' ⟨_, h1, h2⟩ hl
  refine .map hv h1 ?_ ⟨?_, ?_⟩ (h2 hl)
  · have := hp.length_eq; simp at this; simp [this]
  · rw [List.map_map]; simpa [Function.comp_def] using hp
  · intro k v hk
    obtain ⟨k', _, he⟩ := List.mem_map.1 hk
    cases he; rfl

theorem layStrct {rec : Val → E Unit} {name : Bytes} {fs : List Field} (hord : ∀ n ks, (c.ord n ks).Perm ks)
    (hrec : ∀ k v, lastLookup k (fieldEntries fs) = some v → LayEm c inp base (rec v) (.item v)) :
    ∀ s s' g own, EInv c inp base s g → OwnInv s own → encodeStrct c rec name fs s = .ok ((), s') →
    ∃ g' own', OwnInv s' own' ∧ Step c inp base (fun _ _ => True) s s' g g'
      (fun B _ _ => g'.raw.length ≤ maxSize → ∃ n p kvs, StrctHead c.perlCompat B name n g.raw.length p ∧ kvs.length = n ∧
        Entries fs kvs ∧ Lay c inp B (.pairs kvs) p own g'.raw.length own') := by
  intro s s' g own hi ho he
  unfold encodeStrct at he
  dsimp only at he
  obtain ⟨_, s0, h0, he⟩ := E.bind_ok.1 he
  obtain rfl := emit_ok.1 h0
  obtain ⟨_, s1, h1, he⟩ := E.bind_ok.1 he
  have he := optEmit he
  have st0 := lay_more hi [typeOBJECT]
  obtain ⟨g1, st1, hn1⟩ := encKey_bytes name true _ s1 _ st0.inv h1
  have st1 := st1.weaken (Y := fun _ _ => True) (fun _ _ hf => hf.elim)
  have st2 := lay_more st1.inv ((if c.perlCompat then [typeREFN] else []) ++ typeHASH :: varint (structTags fs []).length)
  obtain ⟨ks, s3, h3, h4⟩ := E.bind_ok.1 he
  obtain ⟨hks, rfl⟩ := rangeKeys_ok h3
  have hp : ks.Perm ((structTags fs []).map Prod.fst) := by rw [hks]; exact hord _ _
  obtain ⟨g2, own2, ho2, st3⟩ := layFields (structTags fs []) ks (fun k hk => hp.mem_iff.1 hk)
    (fun k _ f hf => hrec k f.val (by rw [← structTags_lookup, hf]; rfl)) _ s' _ own st2.inv.visit
    (by intro κ o; show s1.ptrTable κ = _ ↔ _; rw [encodeBytes_ptrs h1]; exact ho κ o) h4
  have st3' := st3.unvisit
  refine ⟨g2, own2, ho2, (((st0.comp st1).comp st2).comp st3').mono ?_⟩
  rintro B T T' ⟨_, ⟨_, ⟨_, h5, h6⟩, h7⟩, h8⟩ hl
  have hl2 := Nat.le_trans st3'.grows.le hl
  have hl1 := Nat.le_trans st2.grows.le hl2
  have hkm : (ks.map fun k => (k, ((mapLookup k (structTags fs [])).map Field.val).getD .nil)).map Prod.fst = ks := by
    rw [List.map_map]; simp [Function.comp_def]
  refine ⟨_, _, _, ⟨_, ?_, ?_, h7⟩, ?_, ⟨?_, ?_, ?_⟩, h8 hl⟩
  · simpa [Gh.more] using h5
  · have := h6.2 (Nat.le_trans hn1 hl1)
    simpa [Gh.more] using this
  · have := hp.length_eq; simp at this; simp [this]
  · rw [hkm]; exact hp.nodup_iff.2 (structTags_nodup fs)
  · intro k
    rw [hkm, hp.mem_iff, ← mapLookup_isSome]
    have h1 : k ∈ (fieldEntries fs).map Prod.fst ↔ (lastLookup k (fieldEntries fs)).isSome := by
      unfold lastLookup
      rw [mapLookup_isSome]
      simp
    rw [h1, ← structTags_lookup]
    simp
  · intro k v hk
    obtain ⟨k', hk', he⟩ := List.mem_map.1 hk
    cases he
    rw [← structTags_lookup]
    have := (mapLookup_isSome k (structTags fs [])).2 (hp.mem_iff.1 hk')
    obtain ⟨f, hf⟩ := Option.isSome_iff_exists.1 this
    rw [hf]; rfl

/-- Pointers to structs. -/
theorem layPtr {rec : Val → Bool → E Unit} {a : Nat} {name : Bytes} {fa : Nat} (hc : inp.cellAt a = .strct name fa)
    (hrec : ∀ s s' g own, EInv c inp base s g → OwnInv s own → rec (inp.cellAt a) true s = .ok ((), s') →
    ∃ g' own', OwnInv s' own' ∧ Step c inp base (fun _ _ => True) s s' g g'
      (fun B _ _ => g'.raw.length ≤ maxSize → ∃ n p kvs, StrctHead c.perlCompat B name n g.raw.length p ∧ kvs.length = n ∧
        Entries (inp.fieldsAt fa) kvs ∧ Lay c inp B (.pairs kvs) p own g'.raw.length own')) :
    LayEm c inp base (encodePtr c inp rec false a) (.item (.ptr false a)) := by
  intro s s' g own hi ho he
  unfold encodePtr at he
  dsimp only at he
  rw [if_neg (by rw [hc]; simp [isPerlStruct])] at he
  have hgp : getPointer c inp false a = .ok 0 := by unfold getPointer; rw [hc]
  rw [hgp] at he
  dsimp only at he
  obtain ⟨st, s0, h0, he2⟩ := E.bind_ok.1 he
  clear he
  obtain ⟨rfl, rfl⟩ := E.get_ok.1 h0
  have he := he2
  clear he2
  cases hp : s0.ptrTable a with
  | some o =>
    have hfp : findPtr s0 a 0 = some o := by unfold findPtr; rw [hp]
    rw [hfp] at he
    dsimp only at he
    obtain ⟨_, s1, h1, h2⟩ := E.bind_ok.1 he
    obtain rfl := emit_ok.1 h1
    have st1 := lay_more hi (typeREFP :: varint o)
    have hseen : g.seen o ≠ none := by
      rcases hi.ptrs a o hp with h | ⟨_, h, _⟩ <;> rw [h] <;> simp
    have hr := hi.range o hseen
    have st2 := (step_flag st1.inv h2 hseen).weaken (Y := fun _ _ => True) (fun _ _ hf => hf.elim)
    refine ⟨_, own, ?_, st1.grows.trans st2.grows |> fun _ => ⟨st2.inv, st1.grows.trans st2.grows, fun _ _ _ => .inr (.inl trivial), ?_⟩⟩
    · have : s'.ptrTable = s0.ptrTable := by
        unfold setTrackFlag at h2
        split at h2 <;> cases h2
        rfl
      intro κ o'; rw [this]; exact ho κ o'
    · intro φ B hf hl
      have hsp := st1.reads φ B (hf.prev st2.grows)
      have hphi : φ o = true := hf.all o (by simp)
      obtain ⟨tag, htag⟩ : ∃ tag, g.raw[o]? = some tag := ⟨g.raw[o]'hr.2, List.getElem?_eq_getElem hr.2⟩
      have hb := hf.agree o tag hr.1 (prefix_get st1.grows.raw htag)
      rw [hphi] at hb
      refine .again hsp ((ho a o).1 hp) hb ?_ hr.2
      clear hb htag
      revert tag; apply u8_forall
      set_option maxRecDepth 8000 in decide
  | none =>
    have hfp : findPtr s0 a 0 = none := by unfold findPtr; rw [hp]; simp
    rw [hfp] at he
    dsimp only at he
    obtain ⟨_, s1, h1, he⟩ := E.bind_ok.1 he
    obtain ⟨_, s2, h2, he⟩ := E.bind_ok.1 he
    obtain ⟨_, s3, h3, he⟩ := E.bind_ok.1 he
    rw [if_neg (by simp)] at he
    obtain ⟨_, rfl⟩ := E.pure_ok.1 he
    have h1 := emit_ok.1 h1
    have h2 := rememberPtr_ok h2
    have hpt : ∀ κ o, s2.ptrTable κ = some o →
        s0.ptrTable κ = some o ∨ o = g.raw.length := by
      intro κ o ho
      rw [h2, h1] at ho
      have ho' : (if κ = a then some s0.buf.length else s0.ptrTable κ) = some o := ho
      split at ho'
      · cases ho'
        exact .inr hi.len
      · exact .inl ho'
    have st1 := step_start (X := fun _ o => o = g.raw.length) (tag := typeREFN) (w := [])
      hi (by decide) (s1 := s2) (by rw [h2, h1]) (by rw [h2, h1]) hpt (fun κ o h => h)
    have ho2 : OwnInv s2 (own.put g.raw.length a) := by
      intro κ o
      have e : s2.ptrTable κ = if κ = a then some s0.buf.length else s0.ptrTable κ := by rw [h2, h1]
      rw [e, hi.len]
      unfold Own.put
      by_cases hk : κ = a
      · subst hk
        rw [if_pos rfl]
        constructor
        · intro h; cases h; rw [if_pos rfl]
        · intro h
          split at h
          · rename_i h'; rw [h']
          · rw [(ho _ _).2 h] at hp; cases hp
      · rw [if_neg hk]
        constructor
        · intro h
          have : g.seen o ≠ none := by
            rcases hi.ptrs κ o h with h | ⟨_, h, _⟩ <;> rw [h] <;> simp
          have := (hi.range o this).2
          rw [if_neg (by omega)]
          exact (ho _ _).1 h
        · intro h
          split at h
          · cases h; exact absurd rfl hk
          · exact (ho _ _).2 h
    obtain ⟨g2, own2, ho3, st2⟩ := hrec s2 s3 _ _ st1.inv ho2 h3
    refine ⟨g2, own2, ho3, ((st1.weaken (Y := fun _ _ => True) (fun _ _ _ => trivial)).comp st2).mono ?_⟩
    rintro B T T' ⟨_, ⟨b, hb1, hb2, _, _⟩, h5⟩ hl
    obtain ⟨n, p, kvs, h6, h7, h8, h9⟩ := h5 hl
    rw [start_length] at h6
    exact .ptr hb1 hb2 (fun o h => by rw [(ho _ _).2 h] at hp; cases hp) hc h6 h7 h8 h9

theorem fieldNamed_of_entry {gs : List TField} {fs : List Field} {k : Bytes} {v : Val}
    (hlen : fs.length = gs.length)
    (hn : ∀ (i : Nat) f g, fs[i]? = some f → gs[i]? = some g → f.name = g.name ∧ f.tag = g.tag ∧ f.exported = g.exported)
    (h : lastLookup k (fieldEntries fs) = some v) :
    ∃ i f g, fs[i]? = some f ∧ gs[i]? = some g ∧ FieldNamed gs k i ∧ f.val = v := by
  have hk : (∃ i, FieldNamed gs k i) ∨ ∀ g ∈ gs, g.key ≠ some k := fieldNamed_or k
  rcases hk with ⟨i, hi⟩ | hno
  · obtain ⟨⟨g, hg, hgk⟩, hlast⟩ := hi
    have hlt := (List.getElem?_eq_some_iff.1 hg).1
    obtain ⟨f, hf⟩ : ∃ f, fs[i]? = some f := ⟨fs[i]'(by omega), List.getElem?_eq_getElem _⟩
    have he := effName_key (hn i f g hf hg)
    refine ⟨i, f, g, hf, hg, ⟨⟨g, hg, hgk⟩, hlast⟩, ?_⟩
    have := fieldEntries_last hf (by rw [he]; exact hgk) (fun j f' hj hf' hf'k => by
      have hlt' := (List.getElem?_eq_some_iff.1 hf').1
      obtain ⟨g', hg'⟩ : ∃ g', gs[j]? = some g' := ⟨gs[j]'(by omega), List.getElem?_eq_getElem _⟩
      exact hlast j g' hj hg' (by rw [← effName_key (hn j f' g' hf' hg')]; exact hf'k))
    rw [this] at h
    exact Option.some.inj h
  · exfalso
    unfold lastLookup at h
    have h1 : (mapLookup k (fieldEntries fs).reverse).isSome := by rw [h]; rfl
    rw [mapLookup_isSome] at h1
    simp only [List.map_reverse, List.mem_reverse] at h1
    obtain ⟨⟨k', v'⟩, h2, rfl⟩ := List.mem_map.1 h1
    unfold fieldEntries at h2
    obtain ⟨f, hf, h3⟩ := List.mem_filterMap.1 h2
    obtain ⟨i, hi⟩ := List.getElem?_of_mem hf
    have hlt := (List.getElem?_eq_some_iff.1 hi).1
    obtain ⟨g, hg⟩ : ∃ g, gs[i]? = some g := ⟨gs[i]'(by omega), List.getElem?_eq_getElem _⟩
    have he := effName_key (hn i f g hi hg)
    obtain ⟨k'', h4, h5⟩ := Option.map_eq_some_iff.1 h3
    cases h5
    exact hno g (List.mem_of_getElem? hg) (by rw [← he]; exact h4)

theorem sliceVals_mem {inp : Heap} {q n : Nat} {u : Val} (h : u ∈ sliceVals inp q n) : ∃ i, i < n ∧ u = inp.cellAt (q + i) := by
  obtain ⟨i, hi, rfl⟩ := List.mem_map.1 h
  exact ⟨i, List.mem_range.1 hi, rfl⟩

theorem mapLookup_mem' {α : Type} {k : Bytes} {kvs : List (Bytes × α)} (h : k ∈ kvs.map Prod.fst) :
    ∃ u, mapLookup k kvs = some u :=
  Option.isSome_iff_exists.1 ((mapLookup_isSome k kvs).2 h)

/-- What the encoder writes for values of the types of C55. -/
theorem encode_lay {tc : TCfg} {A : Nat → Option Nat} (hord : ∀ n ks, (c.ord n ks).Perm ks) (hA : FitsAt tc inp A) :
    ∀ (d : Nat) (ty : Ty) (v : Val), Fit tc inp A ty v → LayEm c inp base (encode c inp d v false false) (.item v) := by
  intro d
  induction d using Nat.strongRecOn with
  | ind d ih =>
    intro ty v hv
    have leaf : ∀ rec w, encodeVal c inp rec v false false = emit w → leafBytes v = some w →
        LayEm c inp base (encodeVal c inp rec v false false) (.item v) := by
      intro rec w h1 h2; rw [h1]; exact layLeaf h2
    have key : ∀ rec : Option (Val → Bool → Bool → E Unit),
        (∀ r, rec = some r → ∃ d', d = d' + 2 ∧ r = encode c inp (d' + 1)) →
        LayEm c inp base (encodeVal c inp rec v false false) (.item v) := by
      intro rec hrec
      have fail : ∀ (x : E Unit) job, (∀ s s', x s ≠ .ok ((), s')) → LayEm c inp base x job :=
        fun x job hx s s' g own _ _ he => absurd he (hx s s')
      cases hv with
      | bool => exact leaf rec _ rfl rfl
      | nbool => exact leaf rec _ rfl rfl
      | int => exact leaf rec _ rfl rfl
      | nint => exact leaf rec _ rfl rfl
      | uint => exact leaf rec _ rfl rfl
      | f32 => exact leaf rec _ rfl rfl
      | nf32 => exact leaf rec _ rfl rfl
      | f64 => exact leaf rec _ rfl rfl
      | nf64 => exact leaf rec _ rfl rfl
      | str => exact leaf rec _ (by rw [encodeVal, encodeString_false]) rfl
      | nstr => exact leaf rec _ (by rw [encodeVal, encodeString_false]) rfl
      | bytes => exact leaf rec _ (by rw [encodeVal, encodeBytes_false]) rfl
      | nilptr =>
        cases rec with
        | none => exact fail _ _ (by intro s s' h; rw [encodeVal] at h; cases h)
        | some r => exact leaf (some r) _ rfl rfl
      | @slice e _ p n hs hel =>
        cases rec with
        | none => exact fail _ _ (by intro s s' h; rcases hs with rfl | rfl <;> (rw [encodeVal] at h; cases h))
        | some r =>
          obtain ⟨d', rfl, rfl⟩ := hrec r rfl
          have : encodeVal c inp (some (encode c inp (d' + 1))) v false false =
              encodeArr c (fun v => encode c inp (d' + 1) v false false) (sliceVals inp p n) false := by
            rcases hs with rfl | rfl <;> rw [encodeVal]
          rw [this]
          refine layArr hs fun u hu => ?_
          obtain ⟨i, hi, rfl⟩ := sliceVals_mem hu
          exact ih (d' + 1) (by omega) _ _ (hel i hi)
      | @arr e p n hel =>
        cases rec with
        | none => exact fail _ _ (by intro s s' h; rw [encodeVal] at h; cases h)
        | some r =>
          obtain ⟨d', rfl, rfl⟩ := hrec r rfl
          rw [encodeVal]
          refine layArr (.inr rfl) fun u hu => ?_
          obtain ⟨i, hi, rfl⟩ := sliceVals_mem hu
          exact ih (d' + 1) (by omega) _ _ (hel i hi)
      | @map e _ m hm hnd hel =>
        cases rec with
        | none => exact fail _ _ (by intro s s' h; rcases hm with rfl | rfl <;> (rw [encodeVal] at h; cases h))
        | some r =>
          obtain ⟨d', rfl, rfl⟩ := hrec r rfl
          have : ∃ b, encodeVal c inp (some (encode c inp (d' + 1))) v false false =
              encodeMp c (fun v => encode c inp (d' + 1) v false false) (inp.mapAt m) false b := by
            rcases hm with rfl | rfl
            · exact ⟨true, by rw [encodeVal]⟩
            · exact ⟨c.perlCompat, by rw [encodeVal]⟩
          obtain ⟨b, hb⟩ := this
          rw [hb]
          refine layMap b hm hord fun k hk => ?_
          obtain ⟨u, hu⟩ := mapLookup_mem' hk
          rw [hu]
          exact ih (d' + 1) (by omega) _ _ (hel k u hu)
      | @strct id name a hlen hn hel =>
        cases rec with
        | none => exact fail _ _ (by intro s s' h; rw [encodeVal] at h; cases h)
        | some r =>
          obtain ⟨d', rfl, rfl⟩ := hrec r rfl
          intro s s' g own hi ho he
          rw [encodeVal] at he
          obtain ⟨g', own', h1, h2⟩ := layStrct hord (fun k v hk => by
            obtain ⟨i, f, g, hf, hg, hfn, rfl⟩ := fieldNamed_of_entry hlen hn hk
            exact ih (d' + 1) (by omega) _ _ (hel i f g k hf hg hfn)) s s' g own hi ho he
          refine ⟨g', own', h1, h2.mono ?_⟩
          intro B _ _ h hl
          obtain ⟨n, p, kvs, h3, h4, h5, h6⟩ := h hl
          exact .strct h3 h4 h5 h6
      | @ptr id a ha =>
        cases rec with
        | none => exact fail _ _ (by intro s s' h; rw [encodeVal] at h; cases h)
        | some r =>
          obtain ⟨d', rfl, rfl⟩ := hrec r rfl
          have hfit := hA a id ha
          generalize hcell : inp.cellAt a = u at hfit
          cases hfit with
          | @strct _ name fa hlen hn hel =>
            rw [encodeVal]
            refine layPtr hcell fun s s' g own hi ho he => ?_
            rw [hcell] at he
            cases d' with
            | zero => rw [encode, encodeVal] at he; cases he
            | succ d' =>
              rw [encode, encodeVal] at he
              exact layStrct hord (fun k v hk => by
                obtain ⟨i, f, g, hf, hg, hfn, rfl⟩ := fieldNamed_of_entry hlen hn hk
                exact ih (d' + 1) (by omega) _ _ (hel i f g k hf hg hfn)) s s' g own hi ho he
    match d, key with
    | 0, key => exact key none (by simp)
    | 1, key => exact key none (by simp)
    | d + 2, key => exact key (some (encode c inp (d + 1))) (fun r hr => ⟨d, rfl, by cases hr; rfl⟩)

/-- What Marshal writes after `pre`. -/
theorem encodeAfter_lay {tc : TCfg} {A : Nat → Option Nat} (hord : ∀ n ks, (c.ord n ks).Perm ks) (hA : FitsAt tc inp A)
    {ty : Ty} {v : Val} (hv : Fit tc inp A ty v) {pre w : Bytes} (h : encodeAfter c inp pre v = .ok w)
    (hsz : pre.length + w.length ≤ maxSize) (pre' : Bytes) (hp : pre'.length = pre.length) :
    ∃ own, Lay c inp (pre' ++ w) (.item v) pre.length (fun _ => none) (pre.length + w.length) own := by
  unfold encodeAfter at h
  split at h
  · rename_i s he
    cases h
    have hi : EInv c inp pre.length { buf := pre } ⟨pre, fun _ => none, fun _ => false⟩ :=
      { base_le := Nat.le_refl _
        len := rfl
        agree := fun i b hi hb => by
          have := (List.getElem?_eq_some_iff.1 hb).1
          have hi' : pre.length ≤ i := hi
          have : i < pre.length := this
          omega
        flags := fun o ho => by cases ho
        range := fun o ho => absurd rfl ho
        strs := fun k o ho => by cases ho
        ptrs := fun κ o ho => by cases ho }
    obtain ⟨g', own', _, hst⟩ := encode_lay hord hA _ ty v hv _ _ _ (fun _ => none) hi (by intro κ o; simp) he
    have hlen := hst.inv.len
    have hle : pre.length ≤ g'.raw.length := hst.inv.base_le
    have hl : pre.length + (s.buf.drop pre.length).length = g'.raw.length := by
      rw [List.length_drop]; omega
    have := hst.reads g'.trk (pre' ++ s.buf.drop pre.length)
      { agree := by
          intro i b hi hb
          have h1 := hst.inv.agree i b hi hb
          have h2 := (List.getElem?_eq_some_iff.1 h1).1
          rw [List.getElem?_append_right (by omega), List.getElem?_drop, hp,
            show pre.length + (i - pre.length) = i by omega]
          exact h1
        only := fun o _ ho => hst.inv.flags o ho
        all := fun o ho => ho
        size := by rw [← hl]; exact Nat.lt_of_le_of_lt hsz (by decide) } (by rw [← hl]; exact hsz)
    exact ⟨own', by rw [hl]; exact this⟩
  · cases h

end Sereal
