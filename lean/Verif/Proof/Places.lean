import Verif.Proof.Shared
import Verif.Spec.Places
/-
Decoding keeps every item in a place of its own, and references share the place.
-/
namespace Sereal

/-- The state between items: `F` are the addresses that will not be written any more, `opn` the tracked items begun
but not completed. -/
structure Calm (c : ViewCfg) (s : DState) (F : Addr → Prop) (opn : List Nat) : Prop where
  lt : ∀ a, F a → a < s.heap.next
  canon : F canonicalUndefAddr ∧ s.heap.mem canonicalUndefAddr = .cell (.undef true)
  known : ∀ o l, s.tracked o = some l → l.addr < s.heap.next ∧ (F l.addr ∨ (o ∈ opn ∧ Unset c (s.heap.read l)))

/-- `part` is kept, and will be as long as the addresses in `F` are not touched. -/
def LaidF (c : ViewCfg) (buf : Bytes) (F : Addr → Prop) (hp : Heap) (cd : Bool) (opn : List Nat) (part : Part) (i : Nat)
    (ρ : Places) (j : Nat) (ρ' : Places) : Prop :=
  ∀ h : Heap, Agree F hp h → Laid c h buf cd opn part i ρ j ρ'

/-- The step from `s` to `s'`, which wrote only to `W` and fresh memory. -/
structure Moves (c : ViewCfg) (s : DState) (F : Addr → Prop) (opn : List Nat) (W : Addr → Prop)
    (s' : DState) (F' : Addr → Prop) : Prop where
  calm : Calm c s' F' opn
  sub : ∀ a, F a → F' a
  new : ∀ a, F' a → F a ∨ W a ∨ s.heap.next ≤ a
  agree : Agree F s.heap s'.heap
  frame : Frame W s.heap s'.heap
  depth : s'.copyDepth = s.copyDepth
  fresh : ∀ o l, s'.tracked o = some l → s.tracked o = some l ∨ F' l.addr

/-- The situation before an item is decoded into `loc`. -/
structure Ready (c : ViewCfg) (s : DState) (F : Addr → Prop) (opn : List Nat) (loc : Loc) (K : Val → HObj) : Prop where
  calm : Calm c s F opn
  free : ¬ F loc.addr
  lt : loc.addr < s.heap.next
  ctx : Ctx loc K
  mem : s.heap.mem loc.addr = K .nil
  same : ∀ o l, s.tracked o = some l → l.addr = loc.addr → l = loc

/-- The item is now kept in `loc`. -/
def Lands (c : ViewCfg) (buf : Bytes) (s : DState) (F : Addr → Prop) (opn : List Nat) (loc : Loc) (K : Val → HObj)
    (part : Part) (i j : Nat) (s' : DState) : Prop :=
  ∃ F', Moves c s F opn (· = loc.addr) s' F' ∧ F' loc.addr ∧ (∃ v, s'.heap.mem loc.addr = K v) ∧
    LaidF c buf F' s'.heap s.cd opn part i s.tracked j s'.tracked

section
variable {c : ViewCfg} {buf : Bytes} {s s1 s2 s' : DState} {F F1 F2 F' W W1 : Addr → Prop} {opn : List Nat} {i j k : Nat}
  {loc l : Loc} {K : Val → HObj} {part : Part} {cd : Bool} {ρ ρ' : Places} {hp hp' : Heap}

theorem LaidF.mono (h : LaidF c buf F hp cd opn part i ρ j ρ') (hs : ∀ a, F a → F' a) (ha : Agree F hp hp') :
    LaidF c buf F' hp' cd opn part i ρ j ρ' :=
  fun h' hag => h h' (ha.trans (hag.mono hs))

theorem LaidF.moves (h : LaidF c buf F s.heap cd opn part i ρ j ρ') (m : Moves c s F opn W s' F') :
    LaidF c buf F' s'.heap cd opn part i ρ j ρ' := h.mono m.sub m.agree

theorem Moves.cd_eq (m : Moves c s F opn W s' F') : s'.cd = s.cd := by unfold DState.cd; rw [m.depth]

theorem Moves.trans (a : Moves c s F opn W s1 F1) (b : Moves c s1 F1 opn W1 s2 F2)
    (hW : ∀ x, x < s.heap.next → W1 x → W x) : Moves c s F opn W s2 F2 := by
  refine ⟨b.calm, fun x h => b.sub x (a.sub x h), ?_, a.agree.trans (b.agree.mono a.sub), a.frame.trans b.frame hW,
    b.depth.trans a.depth, ?_⟩
  · intro x hx
    rcases b.new x hx with h | h | h
    · exact a.new x h
    · by_cases hlt : x < s.heap.next
      · exact Or.inr (Or.inl (hW x hlt h))
      · exact Or.inr (Or.inr (by omega))
    · exact Or.inr (Or.inr (Nat.le_trans a.frame.next h))
  · intro o l h
    rcases b.fresh o l h with h | h
    · exact (a.fresh o l h).imp_right (b.sub _)
    · exact Or.inr h

theorem Moves.mono (a : Moves c s F opn W s1 F1) (hW : ∀ x, x < s.heap.next → W x → W1 x) :
    Moves c s F opn W1 s1 F1 := by
  refine ⟨a.calm, a.sub, ?_, a.agree, a.frame.mono hW, a.depth, a.fresh⟩
  intro x hx
  rcases a.new x hx with h | h | h
  · exact Or.inl h
  · by_cases hlt : x < s.heap.next
    · exact Or.inr (Or.inl (hW x hlt h))
    · exact Or.inr (Or.inr (by omega))
  · exact Or.inr (Or.inr h)

theorem Moves.refl (C : Calm c s F opn) : Moves c s F opn W s F :=
  ⟨C, fun _ h => h, fun _ h => Or.inl h, Agree.refl _ _, Frame.refl _ _, rfl, fun _ _ h => Or.inl h⟩

/-- `loc` gets its final contents. -/
theorem Calm.commit (C : Calm c s F opn) (hfree : ¬ F loc.addr) (fr : Frame (· = loc.addr) s.heap s'.heap)
    (ht : s'.tracked = s.tracked) (hd : s'.copyDepth = s.copyDepth) (hs : ∀ a, F a → F' a) (hl : F' loc.addr)
    (hlt : ∀ a, F' a → a < s'.heap.next) (hn : ∀ a, F' a → F a ∨ a = loc.addr ∨ s.heap.next ≤ a) :
    Moves c s F opn (· = loc.addr) s' F' := by
  have hag : Agree F s.heap s'.heap := fun a ha => fr.same a (C.lt a ha) (by rintro rfl; exact hfree ha)
  refine ⟨⟨hlt, ⟨hs _ C.canon.1, by rw [hag _ C.canon.1]; exact C.canon.2⟩, ?_⟩, hs, hn, hag, fr, hd,
    fun o l h => Or.inl (by rw [← ht]; exact h)⟩
  intro o l h
  rw [ht] at h
  obtain ⟨h2, h3⟩ := C.known o l h
  refine ⟨Nat.lt_of_lt_of_le h2 fr.next, ?_⟩
  rcases h3 with h3 | ⟨h3, h4⟩
  · exact Or.inl (hs _ h3)
  · by_cases he : l.addr = loc.addr
    · exact Or.inl (by rw [he]; exact hl)
    · exact Or.inr ⟨h3, by rw [read_congr (fr.same _ h2 he)]; exact h4⟩

/-- Memory is written at an address that is not given up. -/
theorem Calm.hold (C : Calm c s F opn) (hfree : ∀ a, W a → ¬ F a) (fr : Frame W s.heap s'.heap)
    (ht : s'.tracked = s.tracked) (hd : s'.copyDepth = s.copyDepth)
    (hw : ∀ o l, s.tracked o = some l → W l.addr → Unset c (s'.heap.read l)) : Moves c s F opn W s' F := by
  have hag : Agree F s.heap s'.heap := fun a ha => fr.same a (C.lt a ha) (fun h => hfree a h ha)
  refine ⟨⟨fun a ha => Nat.lt_of_lt_of_le (C.lt a ha) fr.next, ⟨C.canon.1, by rw [hag _ C.canon.1]; exact C.canon.2⟩, ?_⟩,
    fun _ h => h, fun _ h => Or.inl h, hag, fr, hd, fun o l h => Or.inl (by rw [← ht]; exact h)⟩
  intro o l h
  rw [ht] at h
  obtain ⟨h2, h3⟩ := C.known o l h
  refine ⟨Nat.lt_of_lt_of_le h2 fr.next, ?_⟩
  rcases h3 with h3 | ⟨h3, h4⟩
  · exact Or.inl h3
  · by_cases hx : W l.addr
    · exact Or.inr ⟨h3, hw o l h hx⟩
    · exact Or.inr ⟨h3, by rw [read_congr (fr.same _ h2 hx)]; exact h4⟩

/-- Only ghost counters changed. -/
theorem Calm.eqv (C : Calm c s F opn) (e : s.Eqv s') : Calm c s' F opn :=
  ⟨by rw [e.heap]; exact C.lt, by rw [e.heap]; exact C.canon, by rw [e.heap, e.tracked]; exact C.known⟩

theorem Ready.eqv (r : Ready c s F opn loc K) (e : s.Eqv s') : Ready c s' F opn loc K :=
  ⟨r.calm.eqv e, r.free, by rw [e.heap]; exact r.lt, r.ctx, by rw [e.heap]; exact r.mem, by rw [e.tracked]; exact r.same⟩

theorem Moves.eqv (m : Moves c s1 F opn W s' F') (e : s.Eqv s1) : Moves c s F opn W s' F' :=
  ⟨m.calm, m.sub, by rw [← e.heap]; exact m.new, by rw [← e.heap]; exact m.agree, by rw [← e.heap]; exact m.frame,
    by rw [← e.copyDepth]; exact m.depth, by rw [← e.tracked]; exact m.fresh⟩

theorem Lands.eqv (m : Lands c buf s1 F opn loc K part i j s') (e : s.Eqv s1) : Lands c buf s F opn loc K part i j s' := by
  obtain ⟨F', h1, h2, h3, h4⟩ := m
  rw [e.cd, e.tracked] at h4
  exact ⟨F', h1.eqv e, h2, h3, h4⟩

theorem Lands.map {part' : Part} {i' : Nat} (m : Lands c buf s F opn loc K part i j s')
    (h : ∀ hp ρ ρ', Laid c hp buf s.cd opn part i ρ j ρ' → Laid c hp buf s.cd opn part' i' ρ j ρ') :
    Lands c buf s F opn loc K part' i' j s' := by
  obtain ⟨F', h1, h2, h3, h4⟩ := m
  exact ⟨F', h1, h2, h3, fun hp ha => h hp _ _ (h4 hp ha)⟩

end

end Sereal
