import Verif.Proof.Sound
import Verif.Proof.Leaf
/-
Soundness of the array and hash loops.
-/
namespace Sereal

/-! ### Association lists -/

theorem mapLookup_insert {α : Type} (k k' : Bytes) (v : α) (es : List (Bytes × α)) :
    mapLookup k' (mapInsert k v es) = if k' = k then some v else mapLookup k' es := by
  induction es with
  | nil => simp only [mapInsert, mapLookup]; by_cases h : k = k' <;> simp [h, eq_comm]
  | cons e es ih =>
    obtain ⟨k1, v1⟩ := e
    simp only [mapInsert]
    by_cases h1 : k1 = k
    · rw [if_pos h1]
      simp only [mapLookup]
      subst h1
      by_cases h2 : k1 = k'
      · simp [h2]
      · rw [if_neg h2, if_neg h2, if_neg (fun h => h2 h.symm)]
    · rw [if_neg h1]
      simp only [mapLookup, ih]
      by_cases h2 : k1 = k'
      · rw [if_pos h2, if_pos h2, if_neg (by rintro rfl; exact h1 h2)]
      · rw [if_neg h2, if_neg h2]

theorem mapInsert_keys {α : Type} (k : Bytes) (v : α) (es : List (Bytes × α)) :
    ∀ x, x ∈ (mapInsert k v es).map Prod.fst ↔ x = k ∨ x ∈ es.map Prod.fst := by
  induction es with
  | nil => simp [mapInsert]
  | cons e es ih =>
    obtain ⟨k1, v1⟩ := e
    intro x
    simp only [mapInsert]
    by_cases h1 : k1 = k
    · rw [if_pos h1]; simp [h1]
    · rw [if_neg h1]
      have := ih x
      simp only [List.map_cons, List.mem_cons, this]
      constructor
      · rintro (h | h | h)
        · exact Or.inr (Or.inl h)
        · exact Or.inl h
        · exact Or.inr (Or.inr h)
      · rintro (h | h | h)
        · exact Or.inr (Or.inl h)
        · exact Or.inl h
        · exact Or.inr (Or.inr h)

theorem mapInsert_nodup {α : Type} (k : Bytes) (v : α) (es : List (Bytes × α))
    (h : (es.map Prod.fst).Nodup) : ((mapInsert k v es).map Prod.fst).Nodup := by
  induction es with
  | nil => simp [mapInsert]
  | cons e es ih =>
    obtain ⟨k1, v1⟩ := e
    simp only [List.map_cons, List.nodup_cons] at h
    simp only [mapInsert]
    by_cases h1 : k1 = k
    · rw [if_pos h1]; simpa [List.nodup_cons] using h
    · rw [if_neg h1]
      simp only [List.map_cons, List.nodup_cons]
      refine ⟨?_, ih h.2⟩
      rw [mapInsert_keys]
      rintro (h2 | h2)
      · exact h1 h2
      · exact h.1 h2

theorem mapLookup_append {α : Type} (k : Bytes) (xs ys : List (Bytes × α)) :
    mapLookup k (xs ++ ys) = (mapLookup k xs).or (mapLookup k ys) := by
  induction xs with
  | nil => simp [mapLookup]
  | cons e xs ih =>
    obtain ⟨k1, v1⟩ := e
    simp only [List.cons_append, mapLookup]
    by_cases h : k1 = k
    · simp [h]
    · simp [h, ih]

/-- Store the pairs one after the other. -/
def insertAll {α : Type} (kvs : List (Bytes × α)) (es : List (Bytes × α)) : List (Bytes × α) :=
  kvs.foldl (fun es kv => mapInsert kv.1 kv.2 es) es

theorem insertAll_lookup {α : Type} (k : Bytes) (kvs es : List (Bytes × α)) :
    mapLookup k (insertAll kvs es) = (lastLookup k kvs).or (mapLookup k es) := by
  induction kvs generalizing es with
  | nil => simp [insertAll, lastLookup, mapLookup]
  | cons e kvs ih =>
    obtain ⟨k1, v1⟩ := e
    have : insertAll ((k1, v1) :: kvs) es = insertAll kvs (mapInsert k1 v1 es) := rfl
    rw [this, ih, mapLookup_insert]
    unfold lastLookup
    rw [List.reverse_cons, mapLookup_append]
    cases h : mapLookup k kvs.reverse with
    | some v => simp
    | none =>
      simp only [Option.none_or, mapLookup]
      by_cases hk : k = k1
      · simp [hk]
      · rw [if_neg hk, if_neg (fun h => hk h.symm)]; rfl

theorem insertAll_nodup {α : Type} (kvs es : List (Bytes × α)) (h : (es.map Prod.fst).Nodup) :
    ((insertAll kvs es).map Prod.fst).Nodup := by
  induction kvs generalizing es with
  | nil => exact h
  | cons e kvs ih => exact ih _ (mapInsert_nodup _ _ _ h)

/-- Looking up a key in two projections of one list. -/
theorem mapLookup_both {α β : Type} (k : Bytes) (xs : List (Bytes × α × β)) :
    (mapLookup k (xs.map fun x => (x.1, x.2.1)) = none ∧
      mapLookup k (xs.map fun x => (x.1, x.2.2)) = none) ∨
    ∃ a b, (k, a, b) ∈ xs ∧ mapLookup k (xs.map fun x => (x.1, x.2.1)) = some a ∧
      mapLookup k (xs.map fun x => (x.1, x.2.2)) = some b := by
  induction xs with
  | nil => exact Or.inl ⟨rfl, rfl⟩
  | cons x xs ih =>
    obtain ⟨k1, a, b⟩ := x
    simp only [List.map_cons, mapLookup]
    by_cases h : k1 = k
    · subst h
      exact Or.inr ⟨a, b, List.mem_cons_self, if_pos rfl, if_pos rfl⟩
    · rw [if_neg h, if_neg h]
      rcases ih with ih | ⟨a', b', h1, h2⟩
      · exact Or.inl ih
      · exact Or.inr ⟨a', b', List.mem_cons_of_mem _ h1, h2⟩

theorem lastLookup_both {α β : Type} (k : Bytes) (xs : List (Bytes × α × β)) :
    (lastLookup k (xs.map fun x => (x.1, x.2.1)) = none ∧
      lastLookup k (xs.map fun x => (x.1, x.2.2)) = none) ∨
    ∃ a b, (k, a, b) ∈ xs ∧ lastLookup k (xs.map fun x => (x.1, x.2.1)) = some a ∧
      lastLookup k (xs.map fun x => (x.1, x.2.2)) = some b := by
  unfold lastLookup
  have := mapLookup_both k xs.reverse
  simpa only [List.map_reverse, List.mem_reverse] using this

/-! ### Loops -/

section
variable {c : ViewCfg} {buf : Bytes} {rec : Nat → Loc → D Nat} (hrec : Sound c buf rec)
include hrec

theorem arrayLoop_sound (n a i : Nat) (s : DState) (T : Seen) (F : Addr → Prop) (j : Nat)
    (s' : DState) (hI : Inv c s T F) (hn : a + n ≤ s.heap.next)
    (hF : ∀ x, a ≤ x → x < a + n → ¬ F x ∧ s.heap.mem x = .cell .nil)
    (h : arrayLoop rec n a i s = (.ok j, s')) :
    ∃ (ts : List Tree) (T' : Seen) (F' : Addr → Prop) (f : Nat → Val), G goDialect buf s.cd (.items n) i T (.trees ts) j T' ∧ ts.length = n ∧
      After c s T F (fun x => a ≤ x ∧ x < a + n) (fun x => a ≤ x ∧ x < a + n) s' T' F' ∧
      (∀ x, x < n → F' (a + x) ∧ s'.heap.mem (a + x) = .cell (f x)) ∧
      (∀ x t, ts[x]? = some t → ShowsF c F' s'.heap (f x) t) := by
  induction n generalizing a i s T F with
  | zero =>
    unfold arrayLoop at h
    obtain ⟨rfl, rfl⟩ := D.pure_ok.1 h
    refine ⟨[], T, F, fun _ => .nil, .itemsNil, rfl, ⟨hI, fun _ h => h, fun _ h => Or.inl h,
      Frame.refl _ _, rfl, fun _ => Or.inl ⟨rfl, rfl⟩⟩, by omega, by simp⟩
  | succ n ih =>
    unfold arrayLoop at h
    obtain ⟨i1, s1, h1, h⟩ := D.bind_ok.1 h
    have ha := hF a (Nat.le_refl _) (by omega)
    obtain ⟨t, T1, g1, F1, v, A1, hFa, hm, hs⟩ := hrec i (.cell a) .cell s T F .nil i1 s1
      ⟨hI, ha.1, by simp only [Loc.addr]; omega, .cell a, ha.2⟩ h1
    simp only [Loc.addr] at A1 hFa hm
    have hrest : ∀ x, a + 1 ≤ x → x < a + 1 + n → ¬ F1 x ∧ s1.heap.mem x = .cell .nil := by
      intro x hx hx'
      obtain ⟨h2, h3⟩ := hF x (by omega) (by omega)
      constructor
      · intro h4
        rcases A1.new x h4 with h5 | h5 | h5
        · exact h2 h5
        · omega
        · omega
      · rw [A1.frame.same x (by omega) (by omega)]; exact h3
    obtain ⟨ts, T2, F2, f, g2, hl, A2, hcells, hshow⟩ := ih (a + 1) i1 s1 T1 F1 A1.inv
      (by have := A1.frame.next; omega) hrest h
    have hag : Agree F1 s1.heap s'.heap := A1.inv.agree A2.frame
      (fun x hx hw => (hrest x hw.1 hw.2).1 hx)
    have hcd : s1.cd = s.cd := by unfold DState.cd; rw [A1.depth]
    rw [hcd] at g2
    refine ⟨t :: ts, T2, F2, fun x => match x with | 0 => v | x + 1 => f x, .itemsCons g1 g2, by simp [hl],
      ?_, ?_, ?_⟩
    · have A1' : After c s T F (fun x => a ≤ x ∧ x < a + (n + 1)) (fun x => a ≤ x ∧ x < a + (n + 1))
          s1 T1 F1 := by
        refine ⟨A1.inv, A1.sub, ?_, A1.frame.mono ?_, A1.depth, A1.moves⟩
        · intro x hx
          rcases A1.new x hx with h | h | h
          · exact Or.inl h
          · exact Or.inr (Or.inl (by omega))
          · exact Or.inr (Or.inr h)
        · intro x _ hx; omega
      exact A1'.trans A2 (fun x _ hx => by omega) (fun x _ hx => by omega)
    · intro x hx
      cases x with
      | zero =>
        refine ⟨A2.sub _ hFa, ?_⟩
        rw [Nat.add_zero, hag a hFa]; exact hm
      | succ x =>
        have := hcells x (by omega)
        rwa [show a + (x + 1) = a + 1 + x by omega]
    · intro x t' hx
      cases x with
      | zero =>
        simp only [List.getElem?_cons_zero, Option.some.injEq] at hx
        subst hx
        exact hs.mono A2.sub hag
      | succ x =>
        exact hshow x t' (by simpa using hx)

theorem hashLoop_sound (m : Addr) (n i : Nat) (s : DState) (T : Seen) (F : Addr → Prop)
    (es : List (Bytes × Val)) (j : Nat) (s' : DState) (hI : Inv c s T F) (hm : m < s.heap.next)
    (hF : ¬ F m) (hes : s.heap.mem m = .mp es) (h : hashLoop buf rec m n i s = (.ok j, s')) :
    ∃ (ks : List (Bytes × Val × Tree)) (T' : Seen) (F' : Addr → Prop),
      G goDialect buf s.cd (.pairs n) i T (.pairs (ks.map fun x => (x.1, x.2.2))) j T' ∧
      After c s T F (· = m) (fun _ => False) s' T' F' ∧
      s'.heap.mem m = .mp (insertAll (ks.map fun x => (x.1, x.2.1)) es) ∧
      ∀ x ∈ ks, ShowsF c F' s'.heap x.2.1 x.2.2 := by
  induction n generalizing i s T F es with
  | zero =>
    unfold hashLoop at h
    obtain ⟨rfl, rfl⟩ := D.pure_ok.1 h
    exact ⟨[], T, F, .pairsNil, ⟨hI, fun _ h => h, fun _ h => Or.inl h,
      Frame.refl _ _, rfl, fun _ => Or.inl ⟨rfl, rfl⟩⟩, hes, by simp⟩
  | succ n ih =>
    unfold hashLoop at h
    obtain ⟨⟨key, i1⟩, s1, h1, h⟩ := D.bind_ok.1 h
    obtain ⟨g0, e1, -, -⟩ := decodeStringish_ok h1
    dsimp only at h
    rw [D.bind_eq (charge_apply _ _), D.bind_eq (allocVar_apply _ _)] at h
    obtain ⟨i2, s2, h2, h⟩ := D.bind_ok.1 h
    rw [D.bind_eq (readLoc_apply _ _), D.bind_eq (mapSet_apply _ _ _ _)] at h
    -- the fresh variable
    have hA0 : After c s T F (fun _ => False) (fun _ => False)
        { s1 with heap := (s1.heap.alloc (.cell .nil)).2,
                  alloc := s1.alloc + key.length, peak := max s1.peak key.length } T F := by
      refine After.heap hI ?_ (fun _ _ h => h) e1.tracked e1.copyDepth (fun _ h => h) ?_
        (fun _ h => Or.inl h)
      · dsimp only; rw [e1.heap]; exact Frame.alloc _ _ _
      · intro a ha
        have := hI.lt a ha
        dsimp only
        rw [e1.heap, Heap.alloc_next]; omega
    have hnext : s1.heap.next = s.heap.next := by rw [e1.heap]
    obtain ⟨t, T1, g1, F1, v, A1, hFa, hma, hs⟩ := hrec i1 (.cell s1.heap.next) .cell _ T F .nil i2 s2
      ⟨hA0.inv, fun hc => by have := hI.lt _ hc; simp only [Loc.addr] at this; omega,
        by simp only [Loc.addr, Heap.alloc_next]; omega,
        .cell _, Heap.alloc_mem _ _⟩ h2
    have hval : s2.heap.read (.cell s1.heap.next) = v := Ctx.read (.cell _) hma
    simp only [Loc.addr] at A1 hFa hma
    rw [hval] at h
    have hm1 : s2.heap.mem m = .mp es := by
      rw [A1.frame.same m (by dsimp only; rw [Heap.alloc_next]; omega) (by omega)]
      dsimp only
      rw [Heap.alloc_old _ _ (by omega), e1.heap]
      exact hes
    have hF1 : ¬ F1 m := by
      intro hc
      rcases A1.new m hc with h5 | h5 | h5
      · exact hF h5
      · omega
      · dsimp only at h5; rw [Heap.alloc_next] at h5; omega
    have hmap : s2.heap.mapAt m = es := by unfold Heap.mapAt; rw [hm1]
    rw [hmap] at h
    have A2 : After c s2 T1 F1 (· = m) (fun _ => False)
        { s2 with heap := s2.heap.set m (.mp (mapInsert key v es)) } T1 F1 := by
      refine After.heap A1.inv (Frame.set _ _ _) ?_ rfl rfl (fun _ h => h) A1.inv.lt
        (fun _ h => Or.inl h)
      rintro a ha rfl; exact hF1 ha
    have hlt2 : m < s2.heap.next := by
      have := A1.frame.next
      dsimp only at this
      rw [Heap.alloc_next] at this; omega
    obtain ⟨ks, T2, F2, g2, A3, hfin, hsh⟩ := ih i2 _ T1 F1 (mapInsert key v es) A2.inv
      hlt2 hF1 (by simp [Heap.set]) h
    have A01 : After c s T F (· = m) (fun _ => False) s2 T1 F1 := by
      have A0' : After c s T F (· = m) (fun _ => False) _ T F :=
        ⟨hA0.inv, hA0.sub, hA0.new, hA0.frame.mono (fun _ _ h => h.elim), hA0.depth, hA0.moves⟩
      exact A0'.trans A1 (fun x hx hw => by omega) (fun x hx hw => by omega)
    have A02 := A01.trans A2 (fun _ _ h => h) (fun _ _ h => h)
    have hag : Agree F1 s2.heap s'.heap :=
      (A1.inv.agree A2.frame (by rintro a ha rfl; exact hF1 ha)).trans
        (A2.inv.agree A3.frame (by rintro a ha rfl; exact hF1 ha))
    have hcd0 : s1.cd = s.cd := e1.cd
    have hcd : s2.cd = s.cd := by
      unfold DState.cd; rw [A1.depth]; exact hcd0
    refine ⟨(key, v, t) :: ks, T2, F2, ?_, A02.trans A3 (fun _ _ h => h) (fun _ _ h => h), ?_, ?_⟩
    · have g1' : G goDialect buf s.cd .item i1 T (.tree t) i2 T1 := by rw [← hcd0]; exact g1
      refine .pairsCons g0 g1' ?_
      rw [← hcd]; exact g2
    · exact hfin
    · intro x hx
      rcases List.mem_cons.1 hx with rfl | hx
      · exact hs.mono A3.sub hag
      · exact hsh x hx

end

end Sereal
