import Verif.Proof.Complete
import Verif.Spec.Typed
/-
Items without references, and decoding them into a fresh `interface{}`.
-/
namespace Sereal

/-- No references in what a job denotes. -/
def Out.noRefs : Out → Prop
  | .tree t => NoRefs t
  | .trees ts => ∀ t ∈ ts, NoRefs t
  | .pairs kvs => ∀ k t, (k, t) ∈ kvs → NoRefs t

/-- What has been seen before does not matter if there are no references. -/
theorem G.anyT {d : Dialect} {buf : Bytes} {cd : Bool} {job : Job} {i : Nat} {T : Seen} {out : Out} {j : Nat}
    {T' : Seen} (g : G d buf cd job i T out j T') : out.noRefs → ∀ T1, ∃ T1', G d buf cd job i T1 out j T1' := by
  induction g with
  | plain ht hb g ih =>
    intro h T1
    obtain ⟨T2, g2⟩ := ih h T1
    exact ⟨_, .plain ht hb g2⟩
  | @tracked cd i k b T t j T' ht hb g ih =>
    intro h T1
    obtain ⟨T2, g2⟩ := ih h (T1.put k none)
    exact ⟨_, .tracked ht hb g2⟩
  | int => exact fun _ T1 => ⟨_, .int⟩
  | varint h => exact fun _ T1 => ⟨_, .varint h⟩
  | zigzag h h' => exact fun _ T1 => ⟨_, .zigzag h h'⟩
  | float h h' => exact fun _ T1 => ⟨_, .float h h'⟩
  | double h h' => exact fun _ T1 => ⟨_, .double h h'⟩
  | true_ => exact fun _ T1 => ⟨_, .true_⟩
  | false_ => exact fun _ T1 => ⟨_, .false_⟩
  | undef => exact fun _ T1 => ⟨_, .undef⟩
  | cundef => exact fun _ T1 => ⟨_, .cundef⟩
  | binary h1 h2 h3 h4 => exact fun _ T1 => ⟨_, .binary h1 h2 h3 h4⟩
  | strUtf8 h1 h2 h3 h4 => exact fun _ T1 => ⟨_, .strUtf8 h1 h2 h3 h4⟩
  | short h1 h2 => exact fun _ T1 => ⟨_, .short h1 h2⟩
  | hash h1 h2 g ih =>
    intro h T1
    cases h with
    | map h =>
    obtain ⟨T2, g2⟩ := ih h T1
    exact ⟨_, .hash h1 h2 g2⟩
  | hashref g ih =>
    intro h T1
    cases h with
    | ref h =>
    cases h with
    | map h =>
    obtain ⟨T2, g2⟩ := ih h T1
    exact ⟨_, .hashref g2⟩
  | array h1 h2 g ih =>
    intro h T1
    cases h with
    | arr h =>
    obtain ⟨T2, g2⟩ := ih h T1
    exact ⟨_, .array h1 h2 g2⟩
  | arrayref g ih =>
    intro h T1
    cases h with
    | ref h =>
    cases h with
    | arr h =>
    obtain ⟨T2, g2⟩ := ih h T1
    exact ⟨_, .arrayref g2⟩
  | refn g ih =>
    intro h T1
    cases h with
    | ref h =>
    obtain ⟨T2, g2⟩ := ih h T1
    exact ⟨_, .refn g2⟩
  | refp => intro h; cases h
  | refpOpen => intro h; cases h
  | alias => intro h; cases h
  | aliasOpen => intro h; cases h
  | copy h1 h2 h3 g ih =>
    intro h T1
    obtain ⟨T2, g2⟩ := ih h T1
    exact ⟨_, .copy h1 h2 h3 g2⟩
  | weaken g ih =>
    intro h T1
    cases h with
    | weak h =>
    obtain ⟨T2, g2⟩ := ih h T1
    exact ⟨_, .weaken g2⟩
  | regexp h1 h2 => exact fun _ T1 => ⟨_, .regexp h1 h2⟩
  | object h1 g ih =>
    intro h T1
    cases h with
    | obj h =>
    obtain ⟨T2, g2⟩ := ih h T1
    exact ⟨_, .object h1 g2⟩
  | objectv h1 h2 h3 g ih =>
    intro h T1
    cases h with
    | obj h =>
    obtain ⟨T2, g2⟩ := ih h T1
    exact ⟨_, .objectv h1 h2 h3 g2⟩
  | freeze h1 h2 g ih =>
    intro h T1
    cases h with
    | frz h =>
    obtain ⟨T2, g2⟩ := ih h T1
    exact ⟨_, .freeze h1 h2 g2⟩
  | freezev h1 h2 h3 h4 g ih =>
    intro h T1
    cases h with
    | frz h =>
    obtain ⟨T2, g2⟩ := ih h T1
    exact ⟨_, .freezev h1 h2 h3 h4 g2⟩
  | itemsNil => exact fun _ T1 => ⟨_, .itemsNil⟩
  | itemsCons g1 g2 ih1 ih2 =>
    intro h T1
    obtain ⟨T2, g3⟩ := ih1 (h _ (List.mem_cons_self ..)) T1
    obtain ⟨T3, g4⟩ := ih2 (fun t ht => h t (List.mem_cons_of_mem _ ht)) T2
    exact ⟨_, .itemsCons g3 g4⟩
  | pairsNil => exact fun _ T1 => ⟨_, .pairsNil⟩
  | pairsCons hk g1 g2 ih1 ih2 =>
    intro h T1
    obtain ⟨T2, g3⟩ := ih1 (h _ _ (List.mem_cons_self ..)) T1
    obtain ⟨T3, g4⟩ := ih2 (fun k t ht => h k t (List.mem_cons_of_mem _ ht)) T2
    exact ⟨_, .pairsCons hk g3 g4⟩

/-- The heap has grown, nothing that was there has changed. -/
abbrev Grow (h h' : Heap) : Prop := Frame (fun _ => False) h h'

theorem Grow.trans {h h1 h2 : Heap} (a : Grow h h1) (b : Grow h1 h2) : Grow h h2 :=
  Frame.trans a b (fun _ _ h => h)

/-- The canonical undef is in place. -/
def DState.Canon (s : DState) : Prop :=
  canonicalUndefAddr < s.heap.next ∧ s.heap.mem canonicalUndefAddr = .cell (.undef true)

/-- What a decode function into typed variables does to the state. -/
structure DState.Step (s s' : DState) : Prop where
  grow : Grow s.heap s'.heap
  depth : s'.copyDepth = s.copyDepth

theorem DState.Step.refl (s : DState) : s.Step s := ⟨Frame.refl _ _, rfl⟩
theorem DState.Step.trans {s s1 s2 : DState} (a : s.Step s1) (b : s1.Step s2) : s.Step s2 :=
  ⟨a.grow.trans b.grow, b.depth.trans a.depth⟩
theorem DState.Step.canon {s s' : DState} (a : s.Step s') (c : s.Canon) : s'.Canon :=
  ⟨Nat.lt_of_lt_of_le c.1 a.grow.next, by rw [a.grow.same _ c.1 (fun h => h)]; exact c.2⟩
theorem DState.Step.cd {s s' : DState} (a : s.Step s') : s'.cd = s.cd := by
  simp [DState.cd, a.depth]
theorem DState.Eqv.step {s s' : DState} (e : s.Eqv s') : s.Step s' :=
  ⟨by rw [e.heap]; exact Frame.refl _ _, e.copyDepth⟩

theorem decodeFresh_comp {cfg : DCfg} {buf : Bytes} {cd : Bool} {i j : Nat} {T T' : Seen} {t : Tree}
    (hlen : buf.length < 2 ^ 63) (g : G goDialect buf cd .item i T (.tree t) j T') (hr : NoRefs t)
    (hs : Supported cfg.view t) (s : DState) (hc : s.Canon) (hcd : s.cd = cd) :
    ∃ s' v, decodeFresh cfg buf i s = (.ok (j, v), s') ∧ s.Step s' ∧
      ∀ h', Grow s'.heap h' → Shows cfg.view h' v t := by
  let T1 : Seen := fun o => (s.tracked o).map (fun _ => none)
  obtain ⟨T2, g2⟩ := g.anyT hr T1
  let s1 : DState := { s with heap := (s.heap.alloc (.cell .nil)).2 }
  have hg0 : Grow s.heap s1.heap := Frame.alloc _ _ _
  have p : Pre cfg.view s1 T1 (· < s.heap.next) (.cell s.heap.next) .cell .nil := by
    refine ⟨⟨?_, ⟨hc.1, ?_⟩, ?_, ?_⟩, Nat.lt_irrefl _, Nat.lt_succ_self _, .cell _, Heap.alloc_mem _ _⟩
    · intro a h; exact Nat.lt_of_lt_of_le h hg0.next
    · rw [hg0.same _ hc.1 (fun h => h)]; exact hc.2
    · intro o; simp [T1, s1]
    · intro o t h
      simp only [T1] at h
      cases hh : s.tracked o <;> rw [hh] at h <;> cases h
  obtain ⟨s', h1, F', v, A, h2, h3, h4⟩ := decode_complete (cfg := cfg) hlen g2 hs (fuelFor buf.length)
    (by unfold need fuelFor; split <;> omega) s1 _ (.cell s.heap.next) .cell p hcd
  have hg : Grow s.heap s'.heap := by
    refine Frame.trans (W' := (· = s.heap.next)) hg0 A.frame ?_
    intro x hx h; omega
  refine ⟨s', v, ?_, ⟨hg, A.depth⟩, ?_⟩
  · unfold decodeFresh
    rw [D.bind_eq (allocVar_apply _ _), D.bind_eq h1, D.bind_eq (readLoc_apply _ _),
      (Ctx.cell s.heap.next).read (hp := s'.heap) h3]
    rfl
  · intro h' hgr
    exact h4 h' (fun a ha => hgr.same a (A.inv.lt a ha) (fun h => h))

end Sereal
