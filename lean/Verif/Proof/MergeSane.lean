import Verif.Proof.MergeAll
/-
What holds after every row of `Append`s, whether they succeed or not.
-/
namespace Sereal

/-- All offsets in a table lie behind the header. -/
def Behind (tbl : List (Bytes × Nat)) : Prop := ∀ k o, mapLookup k tbl = some o → 7 ≤ o

structure LSane (s : LState) : Prop where
  len : 12 ≤ s.mbuf.length
  str : Behind s.strTable
  obj : Behind s.objTable
  trk : ∀ o p, idxLookup o s.trackTable = some p → 7 ≤ p

structure MovedSane (m : Moved) : Prop where
  idx : 7 ≤ m.idx
  str : Behind m.strTable
  obj : Behind m.objTable
  flip : ∀ i, m.flip = some i → 7 ≤ i

theorem Behind.cons {tbl : List (Bytes × Nat)} (h : Behind tbl) {k : Bytes} {o : Nat} (ho : 7 ≤ o) :
    Behind ((k, o) :: tbl) := by
  intro k' o' hk
  rw [mapLookup] at hk
  split at hk
  · cases hk; exact ho
  · exact h k' o' hk

theorem ite_ok {α : Type} {p : Prop} [Decidable p] {a b : Res α} {m : α} (h : (if p then a else b) = .ok m) :
    (p ∧ a = .ok m) ∨ (¬ p ∧ b = .ok m) := by
  split at h
  · exact .inl ⟨by assumption, h⟩
  · exact .inr ⟨by assumption, h⟩

section
variable {s : LState} (hs : LSane s)
include hs

theorem LSane.idx : 7 ≤ s.mrgIdx := by
  have := hs.len
  unfold LState.mrgIdx mergeBodyOffset
  omega

theorem LSane.copy {out : Bytes} {adv : Nat} {push : Option Nat} {fake : Bool} :
    MovedSane (Moved.copy s out adv push fake) :=
  ⟨hs.idx, hs.str, hs.obj, fun i h => by cases h⟩

theorem LSane.string {dbuf : Bytes} {dd : Bool} {ln : Int} {sz : Nat} {m : Moved}
    (h : mergeString s dbuf dd ln sz = .ok m) : MovedSane m ∧ m.flip = none := by
  unfold mergeString at h
  split at h
  · cases h
  · dsimp only at h
    split at h
    · cases h
    · split at h
      · split at h
        · next saved hl => cases h; exact ⟨⟨hs.str _ _ hl, hs.str, hs.obj, fun i h => by cases h⟩, rfl⟩
        · cases h; exact ⟨⟨hs.idx, hs.str.cons hs.idx, hs.obj, fun i h => by cases h⟩, rfl⟩
      · cases h; exact ⟨hs.copy, rfl⟩

theorem LSane.offset {dbuf : Bytes} {b tag : UInt8} {m : Moved} (h : mergeOffset s dbuf b tag = .ok m) :
    MovedSane m ∧ (m.flip = none ∨ tag = typeALIAS ∨ tag = typeREFP) := by
  unfold mergeOffset at h
  obtain ⟨⟨offset, sz⟩, h1, h⟩ := Res.bind_ok.1 h
  dsimp only at h
  split at h
  · cases h
  · next target ht =>
    split at h
    · next htag =>
      split at h
      · cases h
        refine ⟨⟨hs.idx, hs.str, hs.obj, fun i hi => ?_⟩, .inr htag⟩
        cases hi
        split at ht
        · cases ht
        · exact hs.trk _ _ ht
      · cases h
    · split at h <;> cases h <;> exact ⟨hs.copy, .inl rfl⟩

theorem LSane.container {dbuf : Bytes} {tag : UInt8} {m : Moved} (h : mergeContainer s dbuf tag = .ok m) :
    MovedSane m ∧ m.flip = none := by
  unfold mergeContainer at h
  obtain ⟨⟨offset, sz⟩, h1, h⟩ := Res.bind_ok.1 h
  dsimp only at h
  split at h
  · cases h
  · split at h <;> cases h <;> exact ⟨hs.copy, rfl⟩

theorem LSane.regexp {dbuf : Bytes} {m : Moved} (h : mergeRegexp s dbuf = .ok m) : MovedSane m ∧ m.flip = none := by
  unfold mergeRegexp at h
  obtain ⟨⟨offset, sz⟩, h1, h⟩ := Res.bind_ok.1 h
  obtain ⟨⟨offset', sz'⟩, h2, h⟩ := Res.bind_ok.1 h
  cases h
  exact ⟨hs.copy, rfl⟩

theorem LSane.object {dbuf : Bytes} {tag : UInt8} {m : Moved} (h : mergeObject s dbuf tag = .ok m) :
    MovedSane m ∧ m.flip = none := by
  have hi := hs.idx
  unfold mergeObject at h
  obtain ⟨⟨offset, str⟩, h1, h⟩ := Res.bind_ok.1 h
  dsimp only at h
  split at h
  · next saved hl => cases h; exact ⟨⟨hs.obj _ _ hl, hs.str, hs.obj, fun i h => by cases h⟩, rfl⟩
  · cases h
    exact ⟨⟨by show 7 ≤ s.mrgIdx + 1; omega, hs.str, hs.obj.cons (by omega), fun i h => by cases h⟩, rfl⟩

/-- One round: everything refers to places behind the header; a track bit is set only by REFP and ALIAS. -/
theorem LSane.tag {dbuf slack : Bytes} {dd : Bool} {b : UInt8} {m : Moved}
    (h : mergeTag s dbuf slack dd b = .ok m) :
    MovedSane m ∧ (m.flip = none ∨ b.toNat % 128 = 0x29 ∨ b.toNat % 128 = 0x2e) := by
  have hn := and_not_track b
  unfold mergeTag at h
  dsimp only at h
  generalize b &&& ~~~ trackFlag = tag at h hn
  have fin : ∀ {m : Moved}, MovedSane m ∧ m.flip = none →
      MovedSane m ∧ (m.flip = none ∨ b.toNat % 128 = 0x29 ∨ b.toNat % 128 = 0x2e) := fun h => ⟨h.1, .inl h.2⟩
  rcases ite_ok h with ⟨-, h⟩ | ⟨-, h⟩
  · cases h; exact fin ⟨hs.copy, rfl⟩
  rcases ite_ok h with ⟨-, h⟩ | ⟨-, h⟩
  · cases h; exact fin ⟨hs.copy, rfl⟩
  rcases ite_ok h with ⟨-, h⟩ | ⟨-, h⟩
  · obtain ⟨⟨_, sz⟩, h1, h⟩ := Res.bind_ok.1 h
    cases h; exact fin ⟨hs.copy, rfl⟩
  rcases ite_ok h with ⟨-, h⟩ | ⟨-, h⟩
  · obtain ⟨_, h1, h⟩ := Res.bind_ok.1 h
    cases h; exact fin ⟨hs.copy, rfl⟩
  rcases ite_ok h with ⟨-, h⟩ | ⟨-, h⟩
  · obtain ⟨_, h1, h⟩ := Res.bind_ok.1 h
    cases h; exact fin ⟨hs.copy, rfl⟩
  rcases ite_ok h with ⟨-, h⟩ | ⟨-, h⟩
  · obtain ⟨_, h1, h⟩ := Res.bind_ok.1 h
    cases h; exact fin ⟨hs.copy, rfl⟩
  rcases ite_ok h with ⟨-, h⟩ | ⟨-, h⟩
  · obtain ⟨_, h1, h⟩ := Res.bind_ok.1 h
    cases h; exact fin ⟨hs.copy, rfl⟩
  rcases ite_ok h with ⟨-, h⟩ | ⟨-, h⟩
  · obtain ⟨⟨_, sz⟩, h1, h⟩ := Res.bind_ok.1 h
    exact fin (hs.string h)
  rcases ite_ok h with ⟨-, h⟩ | ⟨-, h⟩
  · exact fin (hs.string h)
  rcases ite_ok h with ⟨-, h⟩ | ⟨-, h⟩
  · obtain ⟨h1, h2⟩ := hs.offset h
    refine ⟨h1, ?_⟩
    rcases h2 with h2 | h2 | h2
    · exact .inl h2
    · right; right; rw [← hn, h2]; decide
    · right; left; rw [← hn, h2]; decide
  rcases ite_ok h with ⟨-, h⟩ | ⟨-, h⟩
  · exact fin (hs.container h)
  rcases ite_ok h with ⟨-, h⟩ | ⟨-, h⟩
  · cases h; exact fin ⟨hs.copy, rfl⟩
  rcases ite_ok h with ⟨-, h⟩ | ⟨-, h⟩
  · cases h; exact fin ⟨hs.copy, rfl⟩
  rcases ite_ok h with ⟨-, h⟩ | ⟨-, h⟩
  · exact fin (hs.regexp h)
  rcases ite_ok h with ⟨-, h⟩ | ⟨-, h⟩
  · exact fin (hs.object h)
  rcases ite_ok h with ⟨-, h⟩ | ⟨-, h⟩
  · cases h
  · cases h

end

/-- `y` is `x`, except that some track bits behind the header may be set. -/
structure TrackSet (x y : Bytes) : Prop where
  low : y.map (fun b => b.toNat % 128) = x.map (fun b => b.toNat % 128)
  head : y.take 7 = x.take 7

theorem TrackSet.refl (x : Bytes) : TrackSet x x := ⟨rfl, rfl⟩

theorem TrackSet.trans {x y z : Bytes} (h : TrackSet x y) (h' : TrackSet y z) : TrackSet x z :=
  ⟨h'.low.trans h.low, h'.head.trans h.head⟩

theorem TrackSet.length {x y : Bytes} (h : TrackSet x y) : y.length = x.length := by
  have := congrArg List.length h.low
  simpa using this

theorem track_low (b : UInt8) : (b ||| trackFlag).toNat % 128 = b.toNat % 128 := by
  revert b; apply u8_forall; set_option maxRecDepth 8000 in decide

theorem setFlag_trackSet (x : Bytes) (o : Option Nat) (h : ∀ i, o = some i → 7 ≤ i) : TrackSet x (setFlag x o) := by
  cases o with
  | none => exact .refl x
  | some i =>
    have hi := h i rfl
    constructor
    · apply List.ext_getElem?
      intro n
      simp only [setFlag, List.getElem?_map, List.getElem?_modify]
      split
      · cases x[n]? with
        | none => rfl
        | some v => exact congrArg some (track_low v)
      · cases x[n]? <;> simp
    · apply List.ext_getElem?
      intro n
      simp only [setFlag, List.getElem?_take]
      split
      · rw [List.getElem?_modify]
        simp only [if_neg (show ¬ i = n by omega)]
        cases x[n]? <;> rfl
      · rfl

theorem take_append_seven {x y : Bytes} (h : 12 ≤ x.length) : (x ++ y).take 7 = x.take 7 := by
  rw [List.take_append_of_le_length (by omega)]

/-- The loop keeps the tables sane and the header as it is.  If it fails, what shows of the buffer differs
from the old one in track bits only, and only if the document has a REFP or ALIAS tag. -/
theorem mergeLoop_sane (c : MCfg) (dbuf slack : Bytes) (cap fuel : Nat) (s f : LState) (r : Res Unit)
    (hs : LSane s) (h : mergeLoop c dbuf slack cap fuel s = (r, f)) :
    LSane f ∧ f.mbuf.take 7 = s.mbuf.take 7 ∧ TrackSet s.old f.old ∧
      ((∀ b ∈ dbuf, b.toNat % 128 ≠ 0x29 ∧ b.toNat % 128 ≠ 0x2e) → f.old = s.old ∧ s.mbuf <+: f.mbuf) := by
  induction fuel generalizing s with
  | zero =>
    rw [mergeLoop] at h
    split at h <;> cases h <;> exact ⟨hs, rfl, .refl _, fun _ => ⟨rfl, List.prefix_refl _⟩⟩
  | succ fuel ih =>
    rw [mergeLoop] at h
    split at h
    · cases h; exact ⟨hs, rfl, .refl _, fun _ => ⟨rfl, List.prefix_refl _⟩⟩
    · next b hb =>
      split at h
      · cases h; exact ⟨hs, rfl, .refl _, fun _ => ⟨rfl, List.prefix_refl _⟩⟩
      · next top rest hp =>
        split at h
        · cases h; exact ⟨hs, rfl, .refl _, fun _ => ⟨rfl, List.prefix_refl _⟩⟩
        · next m hm =>
          obtain ⟨h1, h2⟩ := hs.tag hm
          have hT := setFlag_trackSet (s.mbuf ++ m.out) m.flip h1.flip
          have hmb : (s.move cap top rest m).mbuf = setFlag (s.mbuf ++ m.out) m.flip := rfl
          have hs' : LSane (s.move cap top rest m) := by
            refine ⟨?_, h1.str, h1.obj, ?_⟩
            · rw [hmb, setFlag_length, List.length_append]; have := hs.len; omega
            · intro o p hop
              unfold LState.move at hop
              dsimp only at hop
              split at hop
              · rw [idxLookup] at hop
                split at hop
                · cases hop; exact h1.idx
                · exact hs.trk o p hop
              · exact hs.trk o p hop
          have hold : TrackSet s.old (s.move cap top rest m).old := by
            unfold LState.move
            dsimp only
            split
            · exact setFlag_trackSet _ _ h1.flip
            · exact .refl _
          obtain ⟨i1, i2, i3, i4⟩ := ih _ hs' h
          refine ⟨i1, ?_, hold.trans i3, fun hno => ?_⟩
          · rw [i2, hmb, hT.head, take_append_seven hs.len]
          · obtain ⟨j1, j2⟩ := i4 hno
            have hmem := hno b (List.mem_of_getElem? hb)
            have hflip : m.flip = none := by
              rcases h2 with h2 | h2 | h2
              · exact h2
              · exact absurd h2 hmem.1
              · exact absurd h2 hmem.2
            constructor
            · rw [j1]
              unfold LState.move
              dsimp only
              rw [hflip]
              simp [setFlag]
            · refine List.IsPrefix.trans ?_ j2
              rw [hmb, hflip]
              exact List.prefix_append _ _

/-- Between calls. -/
structure MSane (c : MCfg) (s : MState) : Prop where
  inited : s.inited = true
  ver : c.ver ≤ 3
  tags : ∃ tags, topTags c.topLevel = some tags ∧ s.lenOffset = 6 + tags.length ∧
    s.buf.take 7 = (mergeHead c tags).take 7
  len : 12 ≤ s.buf.length
  str : Behind s.strTable
  obj : Behind s.objTable

theorem MSane.lenOffset {c : MCfg} {s : MState} (h : MSane c s) : s.lenOffset + 5 ≤ s.buf.length ∨
    s.lenOffset = 8 := by
  obtain ⟨tags, h1, h2, -⟩ := h.tags
  have := h.len
  cases htop : c.topLevel with
  | invalid => rw [htop] at h1; cases h1
  | array => rw [htop] at h1; cases h1; left; rw [h2]; simp; omega
  | arrayRef => rw [htop] at h1; cases h1; right; rw [h2]; rfl

theorem initMerger_sane {c : MCfg} {s : MState} (h : initMerger c {} = .ok s) : MSane c s := by
  have hg := initMerger_new h
  obtain ⟨tags, items, h1, h2, h3⟩ := hg.head
  have hl : 1 ≤ tags.length := by
    cases htop : c.topLevel with
    | invalid => rw [htop] at h1; cases h1
    | array => rw [htop] at h1; cases h1; decide
    | arrayRef => rw [htop] at h1; cases h1; decide
  have hh := mergeHead_length c tags
  refine ⟨hg.inited, hg.ver, ⟨tags, h1, h2, ?_⟩, by have := hg.len; omega, ?_, ?_⟩
  · rw [h3, List.append_assoc, List.take_append_of_le_length (by omega)]
  · unfold initMerger at h
    dsimp only at h
    rw [if_neg (by decide)] at h
    split at h
    · cases h
    · rw [h1] at h; cases h; intro k o hk; cases hk
  · unfold initMerger at h
    dsimp only at h
    rw [if_neg (by decide)] at h
    split at h
    · cases h
    · rw [h1] at h; cases h; intro k o hk; cases hk

/-- `mergeItems`, whatever its outcome. -/
theorem MSane.items {c : MCfg} {s s' : MState} (hs : MSane c s) {body extra : Bytes} {cap : Nat} {keys : List Nat}
    {r : Res Unit} (h : mergeItems c body extra cap keys s = (r, s')) :
    MSane c s' ∧ (∀ e, r = .error e → s'.length = s.length ∧ TrackSet s.buf s'.buf ∧
      ((∀ b ∈ body, b.toNat % 128 ≠ 0x29 ∧ b.toNat % 128 ≠ 0x2e) → s'.buf = s.buf)) := by
  unfold mergeItems at h
  split at h
  · cases h; exact ⟨hs, fun e _ => ⟨rfl, .refl _, fun _ => rfl⟩⟩
  · next n offset he =>
    split at h
    · cases h; exact ⟨hs, fun e _ => ⟨rfl, .refl _, fun _ => rfl⟩⟩
    · have hl : LSane (LState.mk offset s.buf s.buf [n.toNat] keys [] s.strTable s.objTable) :=
        ⟨hs.len, hs.str, hs.obj, fun o p h => by cases h⟩
      obtain ⟨tags, h1, h2, h3⟩ := hs.tags
      split at h
      · next l hml =>
        obtain ⟨i1, i2, i3, i4⟩ := mergeLoop_sane _ _ _ _ _ _ _ _ hl hml
        cases h
        exact ⟨⟨hs.inited, hs.ver, ⟨tags, h1, h2, by show l.mbuf.take 7 = _; rw [i2]; exact h3⟩, i1.len, i1.str, i1.obj⟩,
          fun e he => by cases he⟩
      · next e l hml =>
        obtain ⟨i1, i2, i3, i4⟩ := mergeLoop_sane _ _ _ _ _ _ _ _ hl hml
        cases h
        refine ⟨⟨hs.inited, hs.ver, ⟨tags, h1, h2, by show l.old.take 7 = _; rw [i3.head]; exact h3⟩, ?_, i1.str, i1.obj⟩,
          fun e he => ⟨rfl, i3, fun hno => (i4 hno).1⟩⟩
        show 12 ≤ l.old.length
        rw [i3.length]
        exact hs.len

/-- `Append`, whatever its outcome. -/
theorem MSane.append {c : MCfg} {s s' : MState} (hs : MSane c s) {cs : Codecs} {extra : Bytes} {cap : Nat} {b : Bytes}
    {r : Res Nat} (h : mergeAppend c cs extra cap b s = (r, s')) :
    MSane c s' ∧ s'.finished = s.finished ∧ s'.lenOffset = s.lenOffset ∧
      (∀ n, r = .ok n → s'.length = s.length + n) ∧
      (∀ e, r = .error e → s'.length = s.length ∧ TrackSet s.buf s'.buf ∧
        ((∀ body, mergeBody cs b = .ok body → ∀ b ∈ body, b.toNat % 128 ≠ 0x29 ∧ b.toNat % 128 ≠ 0x2e) →
          s'.buf = s.buf)) := by
  have same : ∀ {e : Exn}, (.error e, s) = (r, s') → MSane c s' ∧ s'.finished = s.finished ∧ s'.lenOffset = s.lenOffset ∧
      (∀ n, r = .ok n → s'.length = s.length + n) ∧
      (∀ e, r = .error e → s'.length = s.length ∧ TrackSet s.buf s'.buf ∧
        ((∀ body, mergeBody cs b = .ok body → ∀ b ∈ body, b.toNat % 128 ≠ 0x29 ∧ b.toNat % 128 ≠ 0x2e) →
          s'.buf = s.buf)) := by
    intro e h
    cases h
    exact ⟨hs, rfl, rfl, (fun n h => by cases h), fun e _ => ⟨rfl, .refl _, fun _ => rfl⟩⟩
  unfold mergeAppend at h
  rw [initMerger_inited hs.inited] at h
  dsimp only at h
  split at h
  · exact same h
  · split at h
    · exact same h
    · next body hbody =>
      split at h
      · exact same h
      · split at h
        · next e s1 hm =>
          cases h
          obtain ⟨i1, i2⟩ := hs.items hm
          obtain ⟨j1, j2, j3⟩ := mergeItems_inited hm
          refine ⟨i1, j2, j3, (fun n h => by cases h), fun e' _ => ?_⟩
          obtain ⟨k1, k2, k3⟩ := i2 e rfl
          exact ⟨k1, k2, fun hno => k3 (hno body hbody)⟩
        · next u s1 hm =>
          cases h
          obtain ⟨i1, -⟩ := hs.items hm
          obtain ⟨j1, j2, j3⟩ := mergeItems_inited hm
          refine ⟨i1, j2, j3, fun n h => ?_, fun e h => by cases h⟩
          cases h
          have : s.length ≤ s'.length := by
            unfold mergeItems at hm
            split at hm
            · cases hm
            · split at hm
              · cases hm
              · split at hm <;> cases hm
                exact Nat.le_add_right _ _
          omega

end Sereal
