import Verif.Proof.SafeDecode
import Verif.Spec.View
/-
If decode succeeds, the bytes it consumed are an item of the grammar (in the Go dialect) and the
value it stored is the view of the tree the grammar assigns.
-/
namespace Sereal

/-- What the specification needs to know of the decoder's configuration. -/
def DCfg.view (cfg : DCfg) : ViewCfg := ⟨cfg.perlCompat, cfg.disableRefInt, cfg.registry⟩

/-- Two heaps with the same contents at the addresses in `F`. -/
def Agree (F : Addr → Prop) (h h' : Heap) : Prop := ∀ a, F a → h'.mem a = h.mem a

theorem Agree.refl (F : Addr → Prop) (h : Heap) : Agree F h h := fun _ _ => rfl
theorem Agree.trans {F : Addr → Prop} {h h1 h2 : Heap} (a : Agree F h h1) (b : Agree F h1 h2) :
    Agree F h h2 := fun x hx => (b x hx).trans (a x hx)
theorem Agree.mono {F F' : Addr → Prop} {h h' : Heap} (a : Agree F' h h') (hs : ∀ x, F x → F' x) :
    Agree F h h' := fun x hx => a x (hs x hx)

/-- `v` shows `t`, and will as long as the addresses in `F` are not touched. -/
def ShowsF (c : ViewCfg) (F : Addr → Prop) (h : Heap) (v : Val) (t : Tree) : Prop :=
  ∀ h', Agree F h h' → Shows c h' v t

theorem ShowsF.shows {c : ViewCfg} {F : Addr → Prop} {h : Heap} {v : Val} {t : Tree}
    (x : ShowsF c F h v t) : Shows c h v t := x h (Agree.refl _ _)

theorem ShowsF.mono {c : ViewCfg} {F F' : Addr → Prop} {h h' : Heap} {v : Val} {t : Tree}
    (x : ShowsF c F h v t) (hs : ∀ a, F a → F' a) (ha : Agree F h h') : ShowsF c F' h' v t :=
  fun h2 h3 => x h2 (ha.trans (h3.mono hs))

/-- What surrounds the variable a location points to. -/
inductive Ctx : Loc → (Val → HObj) → Prop
  | cell (a : Addr) : Ctx (.cell a) .cell
  | obj (a : Addr) (c : Bytes) : Ctx (.field a) (fun v => .cell (.obj c v))
  | weak (a : Addr) : Ctx (.field a) (fun v => .cell (.weak v))

theorem Ctx.read {l : Loc} {K : Val → HObj} (h : Ctx l K) {hp : Heap} {v : Val}
    (hm : hp.mem l.addr = K v) : hp.read l = v := by
  cases h with
  | cell a =>
    simp only [Heap.read, Heap.cellAt]
    rw [show hp.mem a = .cell v from hm]
  | obj a c =>
    simp only [Heap.read, Heap.cellAt]
    rw [show hp.mem a = .cell (.obj c v) from hm]
  | weak a =>
    simp only [Heap.read, Heap.cellAt]
    rw [show hp.mem a = .cell (.weak v) from hm]

theorem Ctx.write {l : Loc} {K : Val → HObj} (h : Ctx l K) {hp : Heap} {v w : Val}
    (hm : hp.mem l.addr = K v) : (hp.write l w).mem l.addr = K w := by
  cases h with
  | cell a => simp [Heap.write, Heap.set, Loc.addr]
  | obj a c =>
    simp only [Heap.write, Heap.cellAt]
    rw [show hp.mem a = .cell (.obj c v) from hm]
    simp [Heap.set, Loc.addr]
  | weak a =>
    simp only [Heap.write, Heap.cellAt]
    rw [show hp.mem a = .cell (.weak v) from hm]
    simp [Heap.set, Loc.addr]

/-- The decoder state between items: `T` is what the grammar has seen, `F` the addresses that will
not be written any more. -/
structure Inv (c : ViewCfg) (s : DState) (T : Seen) (F : Addr → Prop) : Prop where
  lt : ∀ a, F a → a < s.heap.next
  canon : F canonicalUndefAddr ∧ s.heap.mem canonicalUndefAddr = .cell (.undef true)
  none : ∀ o, s.tracked o = none ↔ T o = none
  done : ∀ o t, T o = some (some t) → ∃ l K v, s.tracked o = some l ∧ Ctx l K ∧ F l.addr ∧
    s.heap.mem l.addr = K v ∧ ShowsF c F s.heap v t

/-- The step from `s`, `T`, `F` to `s'`, `T'`, `F'`, which wrote only to `W` and fresh memory and
gave up only `V` and fresh memory. -/
structure After (c : ViewCfg) (s : DState) (T : Seen) (F : Addr → Prop) (W V : Addr → Prop)
    (s' : DState) (T' : Seen) (F' : Addr → Prop) : Prop where
  inv : Inv c s' T' F'
  sub : ∀ a, F a → F' a
  new : ∀ a, F' a → F a ∨ V a ∨ s.heap.next ≤ a
  frame : Frame W s.heap s'.heap
  depth : s'.copyDepth = s.copyDepth
  moves : ∀ o, (T' o = T o ∧ s'.tracked o = s.tracked o) ∨ ∃ t, T' o = some (some t)

theorem Inv.agree {c : ViewCfg} {s : DState} {T : Seen} {F : Addr → Prop} (i : Inv c s T F)
    {W : Addr → Prop} {h' : Heap} (f : Frame W s.heap h') (hW : ∀ a, F a → ¬ W a) :
    Agree F s.heap h' := fun a ha => f.same a (i.lt a ha) (hW a ha)

/-- The state changes only outside `F`. -/
theorem Inv.frame {c : ViewCfg} {s s' : DState} {T : Seen} {F : Addr → Prop} (i : Inv c s T F)
    {W : Addr → Prop} (f : Frame W s.heap s'.heap) (hW : ∀ a, F a → ¬ W a)
    (ht : s'.tracked = s.tracked) : Inv c s' T F := by
  have ha := i.agree f hW
  refine ⟨fun a h => Nat.lt_of_lt_of_le (i.lt a h) f.next, ⟨i.canon.1, ?_⟩, ?_, ?_⟩
  · rw [ha _ i.canon.1]; exact i.canon.2
  · rw [ht]; exact i.none
  · intro o t h
    obtain ⟨l, K, v, h1, h2, h3, h4, h5⟩ := i.done o t h
    exact ⟨l, K, v, by rw [ht]; exact h1, h2, h3, by rw [ha _ h3]; exact h4,
      h5.mono (fun _ h => h) ha⟩

/-- More addresses are given up. -/
theorem Inv.grow {c : ViewCfg} {s : DState} {T : Seen} {F F' : Addr → Prop} (i : Inv c s T F)
    (hs : ∀ a, F a → F' a) (hl : ∀ a, F' a → a < s.heap.next) : Inv c s T F' := by
  refine ⟨hl, ⟨hs _ i.canon.1, i.canon.2⟩, i.none, ?_⟩
  intro o t h
  obtain ⟨l, K, v, h1, h2, h3, h4, h5⟩ := i.done o t h
  exact ⟨l, K, v, h1, h2, hs _ h3, h4, h5.mono hs (Agree.refl _ _)⟩

theorem After.trans {c : ViewCfg} {s s1 s2 : DState} {T T1 T2 : Seen}
    {F F1 F2 W V W1 V1 : Addr → Prop}
    (a : After c s T F W V s1 T1 F1) (b : After c s1 T1 F1 W1 V1 s2 T2 F2)
    (hW : ∀ x, x < s.heap.next → W1 x → W x) (hV : ∀ x, x < s.heap.next → V1 x → V x) :
    After c s T F W V s2 T2 F2 := by
  refine ⟨b.inv, fun x h => b.sub x (a.sub x h), ?_, a.frame.trans b.frame hW,
    b.depth.trans a.depth, ?_⟩
  · intro x hx
    rcases b.new x hx with h | h | h
    · exact a.new x h
    · by_cases hlt : x < s.heap.next
      · exact Or.inr (Or.inl (hV x hlt h))
      · exact Or.inr (Or.inr (by omega))
    · exact Or.inr (Or.inr (Nat.le_trans a.frame.next h))
  · intro o
    rcases b.moves o with ⟨h1, h2⟩ | h
    · rcases a.moves o with ⟨h3, h4⟩ | ⟨t, h⟩
      · exact Or.inl ⟨h1.trans h3, h2.trans h4⟩
      · exact Or.inr ⟨t, h1.trans h⟩
    · exact Or.inr h

/-- A step that only touches the heap. -/
theorem After.heap {c : ViewCfg} {s s' : DState} {T : Seen} {F F' W V : Addr → Prop}
    (i : Inv c s T F) (f : Frame W s.heap s'.heap) (hW : ∀ a, F a → ¬ W a)
    (ht : s'.tracked = s.tracked) (hd : s'.copyDepth = s.copyDepth)
    (hs : ∀ a, F a → F' a) (hl : ∀ a, F' a → a < s'.heap.next)
    (hn : ∀ a, F' a → F a ∨ V a ∨ s.heap.next ≤ a) : After c s T F W V s' T F' :=
  ⟨(i.frame f hW ht).grow hs hl, hs, hn, f, hd, fun o => Or.inl ⟨rfl, by rw [ht]⟩⟩

/-- The variable at `loc` now shows `t` for good. -/
def Done (c : ViewCfg) (s : DState) (T : Seen) (F : Addr → Prop) (loc : Loc) (K : Val → HObj)
    (t : Tree) (s' : DState) (T' : Seen) : Prop :=
  ∃ F' v, After c s T F (· = loc.addr) (· = loc.addr) s' T' F' ∧ F' loc.addr ∧
    s'.heap.mem loc.addr = K v ∧ ShowsF c F' s'.heap v t

/-- The situation before an item is decoded into `loc`. -/
structure Pre (c : ViewCfg) (s : DState) (T : Seen) (F : Addr → Prop) (loc : Loc)
    (K : Val → HObj) (v0 : Val) : Prop where
  inv : Inv c s T F
  free : ¬ F loc.addr
  lt : loc.addr < s.heap.next
  ctx : Ctx loc K
  mem : s.heap.mem loc.addr = K v0

/-- `rec` decodes items of the grammar. -/
def Sound (c : ViewCfg) (buf : Bytes) (rec : Nat → Loc → D Nat) : Prop :=
  ∀ i loc K s T F v0 j s', Pre c s T F loc K v0 → rec i loc s = (.ok j, s') →
    ∃ t T', G goDialect buf s.cd .item i T (.tree t) j T' ∧ Done c s T F loc K t s' T'

/-- Everything given up once `loc` and the fresh memory are. -/
def Full (s : DState) (F : Addr → Prop) (loc : Loc) (s' : DState) : Addr → Prop :=
  fun a => F a ∨ a = loc.addr ∨ (s.heap.next ≤ a ∧ a < s'.heap.next)

section
variable {c : ViewCfg} {s s' : DState} {T T' : Seen} {F : Addr → Prop} {loc : Loc}
  {K : Val → HObj} {v0 v : Val} {t : Tree}

/-- An item without nested items: only `loc` and fresh memory were written. -/
theorem Pre.leaf (p : Pre c s T F loc K v0) (f : Frame (· = loc.addr) s.heap s'.heap)
    (ht : s'.tracked = s.tracked) (hd : s'.copyDepth = s.copyDepth)
    (hm : s'.heap.mem loc.addr = K v) (hs : ShowsF c (Full s F loc s') s'.heap v t) :
    Done c s T F loc K t s' T := by
  refine ⟨Full s F loc s', v, After.heap p.inv f ?_ ht hd ?_ ?_ ?_, Or.inr (Or.inl rfl), hm, hs⟩
  · rintro a ha rfl; exact p.free ha
  · intro a h; exact Or.inl h
  · rintro a (h | rfl | h)
    · exact Nat.lt_of_lt_of_le (p.inv.lt a h) f.next
    · exact Nat.lt_of_lt_of_le p.lt f.next
    · exact h.2
  · rintro a (h | h | h)
    · exact Or.inl h
    · exact Or.inr (Or.inl h)
    · exact Or.inr (Or.inr h.1)

/-- A value that refers to no memory is stored. -/
theorem Pre.store (p : Pre c s T F loc K v0) (hh : s'.heap = s.heap.write loc v)
    (ht : s'.tracked = s.tracked) (hd : s'.copyDepth = s.copyDepth)
    (hs : ∀ h, Shows c h v t) : Done c s T F loc K t s' T :=
  p.leaf (by rw [hh]; exact Frame.write _ _ _) ht hd (by rw [hh]; exact p.ctx.write p.mem)
    (fun h _ => hs h)

theorem Heap.alloc_mem (h : Heap) (o : HObj) : (h.alloc o).2.mem h.next = o := by
  simp [Heap.alloc, Heap.set]
theorem Heap.alloc_next (h : Heap) (o : HObj) : (h.alloc o).2.next = h.next + 1 := rfl
theorem Heap.alloc_old (h : Heap) (o : HObj) {a : Addr} (ha : a < h.next) :
    (h.alloc o).2.mem a = h.mem a := by
  simp [Heap.alloc, Heap.set, Nat.ne_of_lt ha]

/-- A pointer to a fresh object is stored. -/
theorem Pre.storeNew {o : HObj} (p : Pre c s T F loc K v0)
    (hh : s'.heap = (s.heap.alloc o).2.write loc v)
    (ht : s'.tracked = s.tracked) (hd : s'.copyDepth = s.copyDepth)
    (hs : ∀ h, h.mem s.heap.next = o → Agree F s.heap h → Shows c h v t) :
    Done c s T F loc K t s' T := by
  have f : Frame (· = loc.addr) s.heap s'.heap := by
    rw [hh]; exact (Frame.alloc _ _ _).trans (Frame.write _ _ _) (fun _ _ h => h)
  refine p.leaf (v := v) f ht hd ?_ ?_
  · rw [hh]; exact p.ctx.write (v := v0) (by rw [Heap.alloc_old _ _ p.lt]; exact p.mem)
  · intro h ha
    refine hs h ?_ ?_
    · have hlt : s.heap.next < s'.heap.next := by
        rw [hh, Heap.write_next, Heap.alloc_next]; omega
      rw [ha _ (Or.inr (Or.inr ⟨Nat.le_refl _, hlt⟩)), hh,
        Heap.write_mem _ _ _ _ (Nat.ne_of_gt p.lt), Heap.alloc_mem]
    · refine Agree.trans ?_ (ha.mono (fun a h => Or.inl h))
      exact p.inv.agree f (fun a h he => p.free (by rw [← he]; exact h))

/-- The state changed only in the ghost counters. -/
theorem Pre.eqv (p : Pre c s T F loc K v0) (e : s.Eqv s') : Pre c s' T F loc K v0 :=
  ⟨p.inv.frame (W := fun _ => False) (by rw [e.heap]; exact Frame.refl _ _) (fun _ _ h => h)
      e.tracked, p.free, by rw [e.heap]; exact p.lt, p.ctx, by rw [e.heap]; exact p.mem⟩

theorem Done.eqv {s1 s1' : DState} (d : Done c s1 T F loc K t s1' T') (e : s.Eqv s1)
    (e' : s1'.Eqv s') : Done c s T F loc K t s' T' := by
  obtain ⟨F', v, a, h1, h2, h3⟩ := d
  refine ⟨F', v, ⟨?_, a.sub, ?_, ?_, ?_, ?_⟩, h1, ?_, ?_⟩
  · exact a.inv.frame (W := fun _ => False) (by rw [e'.heap]; exact Frame.refl _ _) (fun _ _ h => h)
      e'.tracked
  · rw [← e.heap]; exact a.new
  · rw [← e.heap, e'.heap]; exact a.frame
  · rw [← e.copyDepth, e'.copyDepth]; exact a.depth
  · rw [← e.tracked, e'.tracked]; exact a.moves
  · rw [e'.heap]; exact h2
  · rw [e'.heap]; exact h3

end

end Sereal
