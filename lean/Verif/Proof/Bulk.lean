import Verif.Spec.Bulk
import Verif.Proof.EmitToks
import Verif.Proof.Shorter
import Verif.Props.C01
/-
How much the encoder appends.
-/
namespace Sereal

/-- The offsets in the tables are offsets into the buffer. -/
structure EState.Inside (s : EState) : Prop where
  str : ∀ k o, s.strTable k = some o → o ≤ s.buf.length
  ptr : ∀ a o, s.ptrTable a = some o → o ≤ s.buf.length

/-- `x` appends at most `n` bytes, unless the buffer gets longer than Go slices can be. -/
def Writes (n : Nat) (x : E α) : Prop := ∀ s a s', s.Inside → x s = .ok (a, s') →
  s'.Inside ∧ s.buf.length ≤ s'.buf.length ∧ (s'.buf.length < 2 ^ 63 → s'.buf.length ≤ s.buf.length + n)

theorem varint_nine {n : Nat} (h : n < 2 ^ 63) : (varint n).length ≤ 9 := varint_length_le (by omega) h

namespace Writes

theorem mono {n m : Nat} {x : E α} (h : Writes n x) (hnm : n ≤ m) : Writes m x := fun s a s' hs e => by
  obtain ⟨h1, h2, h3⟩ := h s a s' hs e
  exact ⟨h1, h2, fun h => by have := h3 h; omega⟩

theorem fail {e : Exn} {n : Nat} : Writes n (E.fail e : E α) := fun _ _ _ _ e => by cases e

theorem pure {a : α} : Writes 0 (Pure.pure a : E α) := fun s _ _ hs e => by cases e; exact ⟨hs, Nat.le_refl _, fun _ => Nat.le_refl _⟩

theorem bind {n m : Nat} {x : E α} {f : α → E β} (hx : Writes n x) (hf : ∀ a, Writes m (f a)) : Writes (n + m) (x >>= f) := by
  intro s b s2 hs e
  obtain ⟨a, s1, e1, e2⟩ := E.bind_ok.1 e
  obtain ⟨h1, h2, h3⟩ := hx s a s1 hs e1
  obtain ⟨h4, h5, h6⟩ := hf a s1 b s2 h1 e2
  exact ⟨h4, by omega, fun h => by have := h6 h; have := h3 (by omega); omega⟩

theorem emit {w : Bytes} {n : Nat} (h : w.length < 2 ^ 63 → w.length ≤ n) : Writes n (Sereal.emit w) := by
  intro s a s' hs e
  cases e
  refine ⟨⟨fun k o ho => ?_, fun a o ho => ?_⟩, ?_, ?_⟩
  · have := hs.str k o ho; simp only [List.length_append]; omega
  · have := hs.ptr a o ho; simp only [List.length_append]; omega
  · simp
  · simp only [List.length_append]; intro h'; have := h (by omega); omega

theorem emit_le {w : Bytes} {n : Nat} (h : w.length ≤ n) : Writes n (Sereal.emit w) := emit fun _ => h

theorem strItem_le {s : Bytes} (h : (strItem s).length < 2 ^ 63) : (strItem s).length ≤ 10 + s.length := by
  unfold strItem at *
  simp only [List.length_append, List.length_cons] at *
  have := varint_nine (n := s.length) (by omega)
  omega

theorem binItem_le {s : Bytes} (h : (binItem s).length < 2 ^ 63) : (binItem s).length ≤ 10 + s.length := by
  unfold binItem at *
  split
  · simp only [List.length_cons]; omega
  · next hl =>
    rw [if_neg hl] at h
    simp only [List.length_append, List.length_cons] at *
    have := varint_nine (n := s.length) (by omega)
    omega

theorem count_le {b : UInt8} {n : Nat} (h : n < 2 ^ 63) : (b :: varint n).length ≤ 10 := by
  have := varint_nine h
  simp only [List.length_cons]; omega

theorem int_le (b : Bool) (i : Int64) : (encodeInt b i).length ≤ 11 := by
  have hv : ∀ n : UInt64, (varint n.toNat).length ≤ 10 := fun n => varint_length_le_ten n.toNat_lt
  unfold encodeInt
  have := hv i.toUInt64
  have := hv ((i <<< 1) ^^^ (i >>> 63)).toUInt64
  split
  · simp
  · split
    · simp
    · split
      · simp only [List.length_cons]; omega
      · split <;> (simp only [List.length_cons]; omega)

/-- A name or the item that stands for it. -/
theorem named {item : Bytes → Bytes} {n : Nat} (hi : ∀ s, (item s).length < 2 ^ 63 → (item s).length ≤ 10 + s.length) (s : Bytes) (b : Bool)
    (hn : 10 + s.length ≤ n) :
    Writes n (do
      if b then
        match (← E.get).strTable s with
        | some offs => Sereal.emit (copyItem offs)
        | none => do
          rememberStr s
          Sereal.emit (item s)
      else Sereal.emit (item s)) := by
  refine mono (n := 10 + s.length) ?_ hn
  cases b with
  | false => exact emit (hi s)
  | true =>
    intro st a st' hs e
    obtain ⟨t, st1, e1, e2⟩ := E.bind_ok.1 e
    cases e1
    cases ht : st.strTable s with
    | some o =>
      rw [ht] at e2
      have ho := hs.str s o ht
      refine (fun h => ⟨h.1, h.2.1, fun hl => ?_⟩ : _ → _) (emit (n := (copyItem o).length) (fun _ => Nat.le_refl _) st a st' hs e2)
      have h1 := h.2.2 hl
      have h2 := count_le (b := typeCOPY) (n := o) (by omega)
      unfold copyItem at h1
      omega
    | none =>
      rw [ht] at e2
      obtain ⟨u, st1, e1, e2⟩ := E.bind_ok.1 e2
      cases e1
      refine (fun hx => emit (hi s) _ a st' hx e2 : _ → _) ⟨fun k o ho => ?_, hs.ptr⟩
      dsimp only at ho ⊢
      split at ho
      · cases ho; exact Nat.le_refl _
      · exact hs.str k o ho

theorem string (cfg : ECfg) (s : Bytes) (b : Bool) : Writes (10 + s.length) (encodeString cfg s b) :=
  named (fun _ => strItem_le) s (!cfg.disableDedup && b) (Nat.le_refl _)

theorem bytes (cfg : ECfg) (s : Bytes) (b : Bool) : Writes (10 + s.length) (encodeBytes cfg s b) :=
  named (fun _ => binItem_le) s (!cfg.disableDedup && b) (Nat.le_refl _)

theorem jnum (cfg : ECfg) (s : Bytes) (b : Bool) : Writes (11 + s.length) (encodeJsonNumber cfg s b) := by
  unfold encodeJsonNumber
  split
  · exact emit_le (Nat.le_trans (int_le _ _) (by omega))
  · exact mono (string _ _ _) (by omega)
  · split
    · exact emit_le (by simp only [encodeDouble, List.length_cons, List.length_nil]; omega)
    · exact mono (string _ _ _) (by omega)

theorem elems {rec : Val → E Unit} {l : List α} {g : α → Val} {cost : α → Nat} (h : ∀ x ∈ l, Writes (cost x) (rec (g x))) :
    Writes ((l.map cost).sum) (encodeElems rec (l.map g)) := by
  induction l with
  | nil => exact pure
  | cons x l ih =>
    rw [List.map_cons, List.map_cons, List.sum_cons]
    exact bind (h x (List.mem_cons_self ..)) fun _ => ih fun y hy => h y (List.mem_cons_of_mem _ hy)

theorem opt {c : Bool} {w : Bytes} {n : Nat} (h : w.length ≤ n) : Writes n (if c then Sereal.emit w else Pure.pure ()) := by
  cases c
  · exact mono pure (Nat.zero_le _)
  · exact emit_le h

theorem range {cfg : ECfg} {ks : List Bytes} (hord : ∀ n ks, (cfg.ord n ks).Perm ks) {f : List Bytes → E Unit} {n : Nat}
    (h : ∀ ks', ks'.Perm ks → Writes n (f ks')) : Writes n (rangeKeys cfg ks >>= f) := by
  intro s a s' hs e
  obtain ⟨ks', s1, e1, e2⟩ := E.bind_ok.1 e
  cases e1
  exact (fun hx => h _ (hord _ _) _ a s' hx e2 : _ → _) ⟨hs.str, hs.ptr⟩

theorem pairs {key : Bytes → E Unit} {rec : Val → E Unit} {kvs : List (Bytes × Val)} {ks : List Bytes} {cost : Bytes → Nat}
    (hk : ∀ k, Writes (10 + k.length) (key k)) (h : ∀ k ∈ ks, Writes (cost k) (rec ((mapLookup k kvs).getD .nil))) :
    Writes ((ks.map fun k => 10 + k.length + cost k).sum) (encodePairs key rec kvs ks) := by
  induction ks with
  | nil => exact pure
  | cons k ks ih =>
    rw [List.map_cons, List.sum_cons, Nat.add_assoc]
    exact bind (hk k) fun _ => bind (h k (List.mem_cons_self ..)) fun _ => ih fun y hy => h y (List.mem_cons_of_mem _ hy)

theorem fields {cfg : ECfg} {rec : Val → E Unit} {tags : List (Bytes × Field)} {ks : List Bytes} {cost : Bytes → Nat}
    (h : ∀ k f, mapLookup k tags = some f → Writes (cost k) (rec f.val)) :
    Writes ((ks.map fun k => 10 + k.length + cost k).sum) (encodeFields cfg rec tags ks) := by
  induction ks with
  | nil => exact pure
  | cons k ks ih =>
    rw [List.map_cons, List.sum_cons, Nat.add_assoc]
    unfold encodeFields
    refine bind (string _ _ _) fun _ => ?_
    cases hk : mapLookup k tags with
    | none => exact mono ih (Nat.le_add_left _ _)
    | some f =>
      dsimp only
      split
      · exact mono (bind (f := fun _ : Unit => encodeFields cfg rec tags ks) (fail (n := 0)) fun _ => ih) (by rw [Nat.zero_add]; exact Nat.le_add_left _ _)
      · exact bind (h k f hk) fun _ => ih

end Writes

/-! ### The fields of a struct -/

def tagsBulk (cost : Field → Nat) (m : List (Bytes × Field)) : Nat := (m.map fun e => 10 + e.1.length + cost e.2).sum

theorem tagsBulk_insert {cost : Field → Nat} {m : List (Bytes × Field)} {k : Bytes} {f : Field} :
    tagsBulk cost (mapInsert k f m) ≤ tagsBulk cost m + (10 + k.length + cost f) := by
  induction m with
  | nil => simp [tagsBulk, mapInsert]
  | cons e m ih =>
    obtain ⟨k', f'⟩ := e
    unfold mapInsert
    split
    · next hk => subst hk; simp only [tagsBulk, List.map_cons, List.sum_cons]; omega
    · simp only [tagsBulk, List.map_cons, List.sum_cons] at *; omega

theorem tagsBulk_le (cost : Field → Nat) (fs : List Field) : ∀ m, tagsBulk cost (structTags fs m) ≤
    tagsBulk cost m + (fs.map fun f => 10 + f.name.length + f.tag.length + cost f).sum := by
  induction fs with
  | nil => intro m; simp [structTags]
  | cons f fs ih =>
    intro m
    unfold structTags
    rw [List.map_cons, List.sum_cons]
    split
    · have := ih m; omega
    · split
      · split
        · have := ih m; omega
        · have := ih (mapInsert f.name f m); have := tagsBulk_insert (cost := cost) (m := m) (k := f.name) (f := f); omega
      · have := ih (mapInsert f.tag f m); have := tagsBulk_insert (cost := cost) (m := m) (k := f.tag) (f := f); omega

/-- The cost of the field with a key. -/
def costAt (cost : Field → Nat) (tags : List (Bytes × Field)) (k : Bytes) : Nat :=
  match mapLookup k tags with
  | some f => cost f
  | none => 0

theorem costAt_sum {cost : Field → Nat} {tags : List (Bytes × Field)} (hn : (tags.map Prod.fst).Nodup) :
    ((tags.map Prod.fst).map fun k => 10 + k.length + costAt cost tags k).sum = tagsBulk cost tags := by
  unfold tagsBulk
  rw [List.map_map]
  congr 1
  apply List.map_congr_left
  rintro ⟨k, f⟩ he
  have : mapLookup k tags = some f := by
    clear cost
    induction tags with
    | nil => cases he
    | cons e tags ih =>
      obtain ⟨k', f'⟩ := e
      rw [List.map_cons, List.nodup_cons] at hn
      unfold mapLookup
      rcases List.mem_cons.1 he with h | h
      · cases h; rw [if_pos rfl]
      · rw [if_neg, ih hn.2 h]
        rintro rfl
        exact hn.1 (List.mem_map.2 ⟨_, h, rfl⟩)
  simp only [Function.comp, costAt, this]

theorem structTags_length (fs : List Field) : ∀ m, (structTags fs m).length ≤ m.length + fs.length := by
  have hi : ∀ (k : Bytes) (f : Field) (m : List (Bytes × Field)), (mapInsert k f m).length ≤ m.length + 1 := by
    intro k f m
    induction m with
    | nil => simp [mapInsert]
    | cons e m ih =>
      obtain ⟨k', f'⟩ := e
      unfold mapInsert
      split <;> simp only [List.length_cons] <;> omega
  induction fs with
  | nil => intro m; simp [structTags]
  | cons f fs ih =>
    intro m
    unfold structTags
    rw [List.length_cons]
    split
    · have := ih m; omega
    · split
      · split
        · have := ih m; omega
        · have := ih (mapInsert f.name f m); have := hi f.name f m; omega
      · have := ih (mapInsert f.tag f m); have := hi f.tag f m; omega

theorem Writes.strct {cfg : ECfg} (hord : ∀ n ks, (cfg.ord n ks).Perm ks) {rec : Val → E Unit} {name : Bytes} {fs : List Field}
    {cost : Field → Nat} (hl : fs.length < 2 ^ 63) (h : ∀ f ∈ fs, Writes (cost f) (rec f.val)) :
    Writes (22 + name.length + (fs.map fun f => 10 + f.name.length + f.tag.length + cost f).sum) (encodeStrct cfg rec name fs) := by
  unfold encodeStrct
  dsimp only
  generalize hs : (fs.map fun f => 10 + f.name.length + f.tag.length + cost f).sum = S
  have hle := tagsBulk_le cost fs []
  rw [hs] at hle
  have hz : tagsBulk cost [] = 0 := rfl
  have hf : ∀ ks', ks'.Perm ((structTags fs []).map Prod.fst) →
      Writes S (encodeFields cfg rec (structTags fs []) ks') := by
    intro ks' hp
    refine Writes.mono (Writes.fields (cost := costAt cost (structTags fs [])) fun k f hk => ?_) ?_
    · unfold costAt
      rw [hk]
      exact h f (structTags_mem hk)
    · rw [(hp.map _).sum_nat, costAt_sum (structTags_nodup fs)]
      omega
  have hlen := structTags_length fs []
  rw [List.length_nil, Nat.zero_add] at hlen
  refine Writes.mono (n := 1 + (10 + name.length + (1 + (10 + S)))) ?_ (by omega)
  refine Writes.bind (Writes.emit_le (by simp)) fun _ => Writes.bind (Writes.bytes _ _ _) fun _ => ?_
  have hb : Writes (10 + S) (do
      Sereal.emit (typeHASH :: varint (structTags fs []).length)
      let ks ← rangeKeys cfg ((structTags fs []).map (·.1))
      encodeFields cfg rec (structTags fs []) ks) :=
    Writes.bind (Writes.emit_le (Writes.count_le (by omega))) fun _ => Writes.range hord hf
  split
  · exact Writes.bind (Writes.emit_le (by simp)) fun _ => hb
  · exact Writes.mono hb (by omega)

theorem Writes.arr {cfg : ECfg} {inp : Heap} {rec : Val → E Unit} {p n : Nat} {rn : Bool} {cost : Nat → Nat} (hl : n < 2 ^ 63)
    (h : ∀ i, i < n → Writes (cost i) (rec (inp.cellAt (p + i)))) :
    Writes (11 + ((List.range n).map cost).sum) (encodeArr cfg rec (sliceVals inp p n) rn) := by
  unfold encodeArr sliceVals
  have hb : Writes (10 + ((List.range n).map cost).sum) (do
      Sereal.emit (typeARRAY :: varint ((List.range n).map fun i => inp.cellAt (p + i)).length)
      encodeElems rec ((List.range n).map fun i => inp.cellAt (p + i))) := by
    refine Writes.bind (Writes.emit_le (Writes.count_le (by simpa using hl))) fun _ => Writes.elems fun i hi => h i (List.mem_range.1 hi)
  split
  · exact Writes.mono (Writes.bind (Writes.emit_le (n := 1) (by simp)) fun _ => hb) (by omega)
  · exact Writes.mono hb (by omega)

theorem Writes.mp {cfg : ECfg} (hord : ∀ n ks, (cfg.ord n ks).Perm ks) {rec : Val → E Unit} {kvs : List (Bytes × Val)} {rn vs : Bool}
    {cost : Bytes → Nat} (hl : kvs.length < 2 ^ 63) (h : ∀ k v, mapLookup k kvs = some v → Writes (cost k) (rec v)) :
    Writes (11 + (kvs.map fun e => 10 + e.1.length + cost e.1).sum) (encodeMp cfg rec kvs rn vs) := by
  unfold encodeMp
  have hb : Writes (10 + (kvs.map fun e => 10 + e.1.length + cost e.1).sum) (do
      Sereal.emit (typeHASH :: varint kvs.length)
      let ks ← rangeKeys cfg (kvs.map (·.1))
      encodePairs (fun k => encodeString cfg k vs) rec kvs ks) := by
    refine Writes.bind (Writes.emit_le (Writes.count_le hl)) fun _ => Writes.range hord fun ks' hp => ?_
    refine Writes.mono (Writes.pairs (cost := cost) (fun k => Writes.string _ _ _) fun k hk => ?_) ?_
    · have hm := hp.mem_iff.1 hk
      rw [← mapLookup_isSome] at hm
      cases hv : mapLookup k kvs with
      | none => rw [hv] at hm; cases hm
      | some v => exact h k v hv
    · rw [(hp.map _).sum_nat, List.map_map]
      exact Nat.le_refl _
  split
  · exact Writes.mono (Writes.bind (Writes.emit_le (n := 1) (by simp)) fun _ => hb) (by omega)
  · exact Writes.mono hb (by omega)

theorem Writes.pointer {cfg : ECfg} {inp : Heap} {rec : Val → Bool → E Unit} {b : Bool} {a : Addr} {n : Nat} (hn : 1 ≤ n)
    (h : ∀ rn, Writes n (rec (inp.cellAt a) rn)) : Writes (9 + n) (encodePtr cfg inp rec b a) := by
  unfold encodePtr
  dsimp only
  split
  · exact Writes.mono (h _) (by omega)
  · split
    · exact Writes.fail
    · next p hp =>
      intro s u s' hs e
      obtain ⟨t, s1, e1, e2⟩ := E.bind_ok.1 e
      cases e1
      cases hf : findPtr s a p with
      | some o =>
        rw [hf] at e2
        dsimp only at e2
        have ho : o ≤ s.buf.length := by
          unfold findPtr at hf
          split at hf
          · next o' h' => cases hf; exact hs.ptr _ _ h'
          · split at hf
            · exact hs.ptr _ _ hf
            · cases hf
        obtain ⟨u1, s1, e1, e2⟩ := E.bind_ok.1 e2
        obtain ⟨h1, h2, h3⟩ := Writes.emit (n := (typeREFP :: varint o).length) (fun _ => Nat.le_refl _) s u1 s1 hs e1
        unfold setTrackFlag at e2
        split at e2
        · cases e2
          refine ⟨⟨fun k o ho => ?_, fun a o ho => ?_⟩, ?_, fun hlt => ?_⟩
          · have := h1.str k o ho; simpa using this
          · have := h1.ptr a o ho; simpa using this
          · simpa using h2
          · simp only [List.length_modify] at hlt ⊢
            have := h3 hlt
            have := Writes.count_le (b := typeREFP) (n := o) (by omega)
            omega
        · cases e2
      | none =>
        rw [hf] at e2
        dsimp only at e2
        obtain ⟨u1, s1, e1, e2⟩ := E.bind_ok.1 e2
        cases e1
        obtain ⟨u2, s2, e1, e2⟩ := E.bind_ok.1 e2
        cases e1
        obtain ⟨u3, s3, e1, e2⟩ := E.bind_ok.1 e2
        obtain ⟨h1, h2, h3⟩ := (fun hx => h true _ u3 s3 hx e1 : _ → _) (by
          refine ⟨fun k o ho => ?_, fun a' o ho => ?_⟩
          · have := hs.str k o ho
            simp only [List.length_append]; omega
          · dsimp only at ho
            simp only [List.length_append]
            split at ho
            · cases ho; omega
            · have := hs.ptr a' o ho; omega)
        simp only [List.length_append, List.length_cons, List.length_nil] at h2 h3
        split at e2
        · cases e2
          refine ⟨⟨h1.str, fun a' o ho => ?_⟩, by dsimp only; omega, fun hlt => by have := h3 hlt; dsimp only; omega⟩
          dsimp only at ho ⊢
          split at ho
          · cases ho; omega
          · exact h1.ptr a' o ho
        · cases e2
          exact ⟨h1, by omega, fun hlt => by have := h3 hlt; omega⟩

theorem Bulk.pos {inp : Heap} {v : Val} {n : Nat} (h : Bulk inp v n) : 1 ≤ n := by
  induction h <;> omega

/-- `encode` appends at most as much as the value takes up. -/
theorem Bulk.adds {cfg : ECfg} {inp : Heap} (hord : ∀ n ks, (cfg.ord n ks).Perm ks) {v : Val} {n : Nat} (h : Bulk inp v n) :
    ∀ rec, (rec = none ∨ ∃ d, rec = some (encode cfg inp (d + 1))) → ∀ ik rn, Writes n (encodeVal cfg inp rec v ik rn) := by
  have rise : ∀ {v n}, (∀ rec, (rec = none ∨ ∃ d, rec = some (encode cfg inp (d + 1))) → ∀ ik rn, Writes n (encodeVal cfg inp rec v ik rn)) →
      ∀ d ik rn, Writes n (encode cfg inp (d + 1) v ik rn) := by
    intro v n h d ik rn
    cases d with
    | zero => exact h none (.inl rfl) ik rn
    | succ d => exact h _ (.inr ⟨d, rfl⟩) ik rn
  induction h with
  | nil | bool | nbool | undef => intro rec hr ik rn; exact Writes.emit_le (by simp)
  | int | uint | nint => intro rec hr ik rn; exact Writes.emit_le (Writes.int_le _ _)
  | f32 | nf32 | f64 | nf64 => intro rec hr ik rn; exact Writes.emit_le (by simp [encodeFloat, encodeDouble])
  | jnum => intro rec hr ik rn; exact Writes.jnum _ _ _
  | str | nstr => intro rec hr ik rn; exact Writes.string _ _ _
  | bin => intro rec hr ik rn; exact Writes.bytes _ _ _
  | slice hl _ ih | rslice hl _ ih =>
    rintro _ (rfl | ⟨d, rfl⟩) ik rn
    · exact Writes.fail
    · exact Writes.arr hl fun i hi => rise (ih i hi) d _ _
  | smap hl _ ih | rmap hl _ ih =>
    rintro _ (rfl | ⟨d, rfl⟩) ik rn
    · exact Writes.fail
    · exact Writes.mp hord hl fun k v hk => rise (ih k v hk) d _ _
  | strct hl _ ih =>
    rintro _ (rfl | ⟨d, rfl⟩) ik rn
    · exact Writes.fail
    · exact Writes.strct hord hl fun f hf => rise (ih f hf) d _ _
  | ptr h ih =>
    rintro _ (rfl | ⟨d, rfl⟩) ik rn
    · exact Writes.fail
    · exact Writes.pointer (rec := fun v rn => encode cfg inp (d + 1) v false rn) h.pos fun rn => rise ih d _ _
  | nilptr =>
    rintro _ (rfl | ⟨d, rfl⟩) ik rn
    · exact Writes.fail
    · exact Writes.emit_le (by simp)
  | obj _ ih =>
    intro rec hr ik rn
    exact Writes.mono (Writes.bind (Writes.emit_le (n := 1) (by simp)) fun _ => Writes.bind (Writes.bytes _ _ _) fun _ => ih rec hr _ _) (by omega)
  | weak _ ih =>
    intro rec hr ik rn
    exact Writes.bind (Writes.emit_le (n := 1) (by simp)) fun _ => ih rec hr _ _
  | regexp =>
    intro rec hr ik rn
    exact Writes.mono (Writes.bind (Writes.emit_le (n := 1) (by simp)) fun _ => Writes.bind (Writes.bytes _ _ _) fun _ => Writes.bytes _ _ _) (by omega)
  | @frozen cls data =>
    rintro _ (rfl | ⟨d, rfl⟩) ik rn
    · exact Writes.fail
    · refine Writes.mono (Writes.strct hord (cost := fun f => if f.val = .str cls then 10 + cls.length else 10 + data.length) (by simp) ?_) ?_
      · intro f hf
        simp only [List.mem_cons, List.not_mem_nil, or_false] at hf
        rcases hf with rfl | rfl
        · rw [if_pos rfl]; exact rise (fun _ _ _ _ => Writes.string _ _ _) d _ _
        · rw [if_neg (by simp)]; exact rise (fun _ _ _ _ => Writes.bytes _ _ _) d _ _
      · simp [namePerlFreeze, nameClass, nameData]; omega
  | @marshaler cls data v n _ ih =>
    intro rec hr ik rn
    unfold encodeVal
    split
    · exact Writes.mono (ih rec hr _ _) (by omega)
    · refine Writes.mono (n := 1 + (10 + cls.length + (1 + (2 + (10 + data.length))))) ?_ (by omega)
      exact Writes.bind (Writes.emit_le (by simp)) fun _ => Writes.bind (Writes.string _ _ _) fun _ => Writes.bind (Writes.emit_le (by simp)) fun _ =>
        Writes.bind (Writes.emit_le (by rw [varint_lt (by omega)]; simp)) fun _ => Writes.bytes _ _ _

/-- A body or user header takes no more than the value. -/
theorem Bulk.after {cfg : ECfg} {inp : Heap} (hord : ∀ n ks, (cfg.ord n ks).Perm ks) {v : Val} {n : Nat} {pre w : Bytes}
    (h : Bulk inp v n) (e : encodeAfter cfg inp pre v = .ok w) (hl : pre.length + w.length < 2 ^ 63) : w.length ≤ n := by
  unfold encodeAfter at e
  generalize hd : remainingRecursion cfg.maxRecursionDepth = d at e
  have hA : Writes n (encode cfg inp d v false false) := by
    match d with
    | 0 => exact h.adds hord _ (.inl rfl) _ _
    | 1 => exact h.adds hord _ (.inl rfl) _ _
    | d + 2 => exact h.adds hord _ (.inr ⟨d, rfl⟩) _ _
  split at e
  · next s hs =>
    cases e
    obtain ⟨_, h2, h3⟩ := hA _ _ _ ⟨fun _ _ h => (by cases h), fun _ _ h => (by cases h)⟩ hs
    simp only [List.length_drop] at hl ⊢
    dsimp only at h2 h3
    have := h3 (by omega)
    omega
  · cases e

end Sereal
