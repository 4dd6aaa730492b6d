import Verif.Proof.TwinDecode
import Verif.Proof.LayRun
/-
The decoder for typed variables on twins.
-/
namespace Sereal

/-- Both runs succeed and are related by `R`, or both fail with the same error. -/
def BothMem (R : α → α → MSt → MSt → Prop) (r1 r2 : Except Exn α × MSt) : Prop :=
  match r1, r2 with
  | (.ok a, s1), (.ok b, s2) => R a b s1 s2
  | (.error e, _), (.error e', _) => e = e'
  | _, _ => False

theorem BothMem.bind {R : α → α → MSt → MSt → Prop} {R' : β → β → MSt → MSt → Prop} {x1 x2 : M α}
    {f1 f2 : α → M β} {s1 s2 : MSt} (h : BothMem R (x1 s1) (x2 s2))
    (hf : ∀ a b s1' s2', R a b s1' s2' → BothMem R' (f1 a s1') (f2 b s2')) :
    BothMem R' ((x1 >>= f1) s1) ((x2 >>= f2) s2) := by
  rw [M.bind_apply, M.bind_apply]
  cases h1 : x1 s1 with
  | mk r1 t1 =>
    cases h2 : x2 s2 with
    | mk r2 t2 =>
      rw [h1, h2] at h
      cases r1 with
      | ok a =>
        cases r2 with
        | ok b => exact hf a b t1 t2 h
        | error e => exact absurd h id
      | error e =>
        cases r2 with
        | ok b => exact absurd h id
        | error e' => exact h

/-- Corresponding states: as for `interface{}`, with the same memory. -/
structure MPair (P : List (Nat × Nat)) (i1 i2 : Nat) (s1 s2 : MSt) : Prop where
  d : Pair P i1 i2 s1.d s2.d
  mem : s1.mem = s2.mem
  typed : ∀ o1 o2, (o1, o2) ∈ P → s1.typed o1 = s2.typed o2
  fresh1 : ∀ o, i1 ≤ o → s1.typed o = none
  fresh2 : ∀ o, i2 ≤ o → s2.typed o = none

theorem MPair.move {P : List (Nat × Nat)} {i1 i2 j1 j2 : Nat} {s1 s2 : MSt} (h : MPair P i1 i2 s1 s2)
    (h1 : i1 ≤ j1) (h2 : i2 ≤ j2) : MPair P j1 j2 s1 s2 :=
  ⟨h.d.move h1 h2, h.mem, h.typed, fun o ho => h.fresh1 o (by omega), fun o ho => h.fresh2 o (by omega)⟩

/-- The other part of the state is replaced. -/
theorem MPair.withD {P : List (Nat × Nat)} {i1 i2 : Nat} {s1 s2 : MSt} (h : MPair P i1 i2 s1 s2) {d1 d2 : DState}
    (hd : Pair P i1 i2 d1 d2) : MPair P i1 i2 { s1 with d := d1 } { s2 with d := d2 } :=
  ⟨hd, h.mem, h.typed, h.fresh1, h.fresh2⟩

theorem MPair.withMem {P : List (Nat × Nat)} {i1 i2 : Nat} {s1 s2 : MSt} (h : MPair P i1 i2 s1 s2) {m1 m2 : Mem}
    (hm : m1 = m2) : MPair P i1 i2 { s1 with mem := m1 } { s2 with mem := m2 } :=
  ⟨h.d, hm, h.typed, h.fresh1, h.fresh2⟩

/-- The runs reach corresponding positions. -/
abbrev MMeet (P : List (Nat × Nat)) (j1 j2 : Nat) : Nat → Nat → MSt → MSt → Prop :=
  fun x y s1 s2 => x = j1 ∧ y = j2 ∧ MPair P j1 j2 s1 s2

/-- A computation that does not look at the positions of items. -/
def Uniform (x : M α) : Prop :=
  ∀ P i1 i2 s1 s2, MPair P i1 i2 s1 s2 → BothMem (fun a b t1 t2 => a = b ∧ MPair P i1 i2 t1 t2) (x s1) (x s2)

namespace Uniform

theorem pure (a : α) : Uniform (Pure.pure a : M α) := fun _ _ _ _ _ h => ⟨rfl, h⟩
theorem fail (e : Exn) : Uniform (M.fail e : M α) := fun _ _ _ _ _ _ => rfl
theorem err (e : Err) : Uniform (M.err e : M α) := fun _ _ _ _ _ _ => rfl

theorem bind {x : M α} {f : α → M β} (hx : Uniform x) (hf : ∀ a, Uniform (f a)) : Uniform (x >>= f) := by
  intro P i1 i2 s1 s2 h
  refine BothMem.bind (hx P i1 i2 s1 s2 h) ?_
  rintro a b t1 t2 ⟨rfl, ht⟩
  exact hf a P i1 i2 t1 t2 ht

theorem failIf {c : Prop} [Decidable c] (e : Exn) : Uniform (M.failIf c e) := by
  unfold M.failIf
  split
  · exact fail e
  · exact pure ()

theorem read (t : Target) : Uniform t.read := by
  intro P i1 i2 s1 s2 h
  unfold Target.read
  cases t.place with
  | var l => exact ⟨by rw [h.mem], h⟩
  | tmp v => exact ⟨rfl, h⟩

theorem write (t : Target) (v : MVal) : Uniform (t.write v) := by
  intro P i1 i2 s1 s2 h
  cases hp : t.place with
  | var l =>
    cases hr : t.ro with
    | false =>
      rw [Target.write_var hp hr, Target.write_var hp hr]
      exact ⟨rfl, by exact h.withMem (by rw [h.mem])⟩
    | true =>
      have : t.write v = M.fail (.panic "reflect: using unexported field") := by
        unfold Target.write; rw [hp, hr]; rfl
      rw [this]; exact rfl
  | tmp w =>
    have : t.write v = M.fail (.panic "reflect: using unaddressable value") := by
      unfold Target.write; rw [hp]
    rw [this]; exact rfl

theorem newVar (v : MVal) : Uniform (Sereal.newVar v) := by
  intro P i1 i2 s1 s2 h
  exact ⟨by rw [h.mem], by exact h.withMem (by rw [h.mem])⟩

theorem newMap : Uniform Sereal.newMap := by
  intro P i1 i2 s1 s2 h
  exact ⟨by rw [h.mem], by exact h.withMem (by rw [h.mem])⟩

theorem alloc (v : Val) : Uniform (M.lift (allocVar v)) := by
  intro P i1 i2 s1 s2 h
  unfold M.lift
  rw [allocVar_apply, allocVar_apply]
  exact ⟨by rw [h.d.heap], by exact h.withD (h.d.step (by dsimp only; rw [h.d.heap]) rfl rfl rfl rfl)⟩

theorem readLoc (l : Loc) : Uniform (M.lift (Sereal.readLoc l)) := by
  intro P i1 i2 s1 s2 h
  unfold M.lift
  rw [readLoc_apply, readLoc_apply]
  exact ⟨by rw [h.d.heap], by exact h.withD h.d⟩

theorem makeSlice (t : Target) (vs : List MVal) : Uniform (t.makeSlice vs) :=
  bind (newVar _) fun _ => write _ _

theorem setInt (t : Target) (i : Int64) : Uniform (t.setInt i) := by
  unfold Target.setInt; split
  · exact write _ _
  · exact write _ _
  · exact fail _

theorem setFloat (tc : TCfg) (t : Target) (u : UInt64) : Uniform (t.setFloat tc u) := by
  unfold Target.setFloat; split
  · exact write _ _
  · exact write _ _
  · exact fail _

theorem setBool (t : Target) (b : Bool) : Uniform (t.setBool b) := by
  unfold Target.setBool; split
  · exact write _ _
  · exact fail _

theorem setString (t : Target) (s : Bytes) : Uniform (t.setString s) := by
  unfold Target.setString; split
  · exact write _ _
  · exact fail _

theorem setBinary (t : Target) (s : Bytes) : Uniform (t.setBinary s) := by
  unfold Target.setBinary; split
  · refine bind (read _) fun v => ?_
    split
    · refine bind (failIf _) fun _ => ?_
      intro P i1 i2 s1 s2 h
      exact ⟨rfl, by exact h.withMem (by rw [h.mem])⟩
    · exact makeSlice _ _
  · exact fail _
  · exact bind (read _) fun v => write _ _
  · exact fail _
  · exact write _ _
  · exact fail _

theorem setPerl (t : Target) (v : Val) : Uniform (t.setPerl v) := by
  unfold Target.setPerl; split
  · exact write _ _
  · exact fail _

theorem undef (cfg : DCfg) (c : Bool) (t : Target) : Uniform (undefMem cfg c t) := by
  unfold undefMem
  split
  · exact setPerl _ _
  · split
    · exact bind (alloc _) fun _ => setPerl _ _
    · split
      · exact write _ _
      · exact write _ _
      · exact write _ _
      · exact pure _

theorem assign (t : Target) (ty : Ty) (v : MVal) : Uniform (t.assign ty v) := by
  unfold Target.assign
  split
  · exact write _ _
  · split
    · exact write _ _
    · exact fail _

theorem assignAny (t : Target) (v : Val) : Uniform (t.assignAny v) := by
  unfold Target.assignAny
  split
  · exact fail _
  · split
    · exact write _ _
    · split
      · exact assign _ _ _
      · split
        · exact fail _
        · exact fail _

theorem fromAny (cfg : DCfg) (r : Bool) (t : Target) (v : MVal) (ro : Bool) : Uniform (t.fromAny cfg r v ro) := by
  unfold Target.fromAny
  refine bind (failIf _) fun _ => bind (failIf _) fun _ => ?_
  split
  · split
    · exact bind (read _) fun _ => assign _ _ _
    · refine bind (readLoc _) fun w => ?_
      split
      · exact write _ _
      · exact fail _
    · exact bind (readLoc _) fun w => assignAny _ _
    · exact fail _
  · split
    · exact assign _ _ _
    · exact assignAny _ _
    · exact fail _

theorem call (f : Bytes → Option Nat) (data : Bytes) (l : Spot) : Uniform (callUnmarshal f data l) := by
  unfold callUnmarshal
  split
  · exact err _
  · intro P i1 i2 s1 s2 h
    exact ⟨rfl, by exact h.withMem (by rw [h.mem])⟩

theorem deref (t : Target) (e : Ty) : Uniform (t.deref e) := by
  unfold Target.deref
  refine bind (read _) fun v => ?_
  split
  · exact pure _
  · exact bind (newVar _) fun _ => bind (write _ _) fun _ => pure _

theorem unmarshal (tc : TCfg) (t : Target) (data : Bytes) : Uniform (unmarshalMem tc t data) := by
  have no : ∀ m, Uniform (M.failIf t.unaddressable (.panic m) >>= fun _ => Pure.pure false : M Bool) :=
    fun m => bind (failIf _) fun _ => pure _
  have yes : ∀ f l, Uniform (callUnmarshal f data l >>= fun _ => Pure.pure true : M Bool) :=
    fun f l => bind (call _ _ _) fun _ => pure _
  unfold unmarshalMem
  split
  · refine bind (deref _ _) fun t' => bind (failIf _) fun _ => ?_
    split
    · split
      · exact yes _ _
      · exact no _
    · exact no _
  · refine bind (failIf _) fun _ => ?_
    split
    · exact yes _ _
    · exact pure _
  · refine bind (failIf _) fun _ => bind (read _) fun v => ?_
    split
    · split
      · exact yes _ _
      · exact fail _
      · exact no _
    · exact fail _
    · exact fail _
    · exact no _
  · exact no _

theorem lookup (t : Target) (key : Bytes) : Uniform (t.lookup key) := by
  unfold Target.lookup
  refine bind (read _) fun v => ?_
  cases v with
  | map m =>
    intro P i1 i2 s1 s2 h
    exact ⟨by rw [h.mem], h⟩
  | _ => exact pure _

theorem insert (t : Target) (key : Bytes) (v : MVal) : Uniform (t.insert key v) := by
  unfold Target.insert
  refine bind (failIf _) fun _ => bind (read _) fun v => ?_
  cases v with
  | map m =>
    intro P i1 i2 s1 s2 h
    exact ⟨rfl, by exact h.withMem (by rw [h.mem])⟩
  | _ => exact fail _

end Uniform

/-- A computation that does not look at positions, and then something else. -/
theorem BothMem.uniform {R : β → β → MSt → MSt → Prop} {P : List (Nat × Nat)} {i1 i2 : Nat} {x : M α}
    {f1 f2 : α → M β} {s1 s2 : MSt} (hx : Uniform x) (hs : MPair P i1 i2 s1 s2)
    (hf : ∀ a t1 t2, MPair P i1 i2 t1 t2 → BothMem R (f1 a t1) (f2 a t2)) :
    BothMem R ((x >>= f1) s1) ((x >>= f2) s2) := by
  refine BothMem.bind (hx P i1 i2 s1 s2 hs) ?_
  rintro a b t1 t2 ⟨rfl, ht⟩
  exact hf a t1 t2 ht

section
variable {B1 B2 : Bytes}

/-- The positions a job adds are not before it. -/
theorem Twin.adds {job : TwinJob} {P P' : List (Nat × Nat)} {i1 i2 j1 j2 : Nat}
    (h : Twin B1 B2 job P i1 i2 j1 j2 P') : ∀ x ∈ P', x ∈ P ∨ (i1 ≤ x.1 ∧ i2 ≤ x.2) := by
  have one : ∀ {P : List (Nat × Nat)} {i1 i2 : Nat}, ∀ x ∈ (i1, i2) :: P, x ∈ P ∨ (i1 ≤ x.1 ∧ i2 ≤ x.2) := by
    intro P i1 i2 x hx
    rcases List.mem_cons.1 hx with rfl | h
    · exact .inr ⟨Nat.le_refl _, Nat.le_refl _⟩
    · exact .inl h
  have more : ∀ {P P' : List (Nat × Nat)} {i1 i2 k1 k2 : Nat}, i1 ≤ k1 → i2 ≤ k2 →
      (∀ x ∈ P', x ∈ (i1, i2) :: P ∨ (k1 ≤ x.1 ∧ k2 ≤ x.2)) → ∀ x ∈ P', x ∈ P ∨ (i1 ≤ x.1 ∧ i2 ≤ x.2) := by
    intro P P' i1 i2 k1 k2 h1 h2 ih x hx
    rcases ih x hx with h | h
    · exact one x h
    · exact .inr ⟨by omega, by omega⟩
  induction h with
  | bare => exact one
  | num => exact one
  | float => exact one
  | double => exact one
  | str => exact one
  | short => exact one
  | refp => exact one
  | regexp => exact one
  | array _ _ _ v1 v2 _ ih => have := v1.lt; have := v2.lt; exact more (by omega) (by omega) ih
  | hash _ _ _ v1 v2 _ ih => have := v1.lt; have := v2.lt; exact more (by omega) (by omega) ih
  | refn _ _ _ _ ih => exact more (by omega) (by omega) ih
  | weaken _ _ _ _ ih => exact more (by omega) (by omega) ih
  | object _ _ _ c1 c2 _ ih => have := c1.lt; have := c2.lt; exact more (by omega) (by omega) ih
  | freeze _ _ _ c1 c2 _ _ _ ih => have := c1.lt; have := c2.lt; exact more (by omega) (by omega) ih
  | itemsNil => exact fun x hx => .inl hx
  | itemsCons g1 _ ih1 ih2 =>
    have := g1.lt
    intro x hx
    rcases ih2 x hx with h | h
    · exact ih1 x h
    · exact .inr ⟨by omega, by omega⟩
  | pairsNil => exact fun x hx => .inl hx
  | pairsCons c1 c2 g1 _ ih1 ih2 =>
    have := c1.lt; have := c2.lt
    have := g1.lt
    intro x hx
    rcases ih2 x hx with h | h
    · rcases ih1 x h with h | h
      · exact .inl h
      · exact .inr ⟨by omega, by omega⟩
    · exact .inr ⟨by omega, by omega⟩

theorem fuel_enough {job : TwinJob} {P P' : List (Nat × Nat)} {i1 i2 j1 j2 : Nat}
    (h : Twin B1 B2 job P i1 i2 j1 j2 P') (hj : job = .item) :
    j1 ≤ i1 + fuelFor B1.length ∧ j2 ≤ i2 + fuelFor B2.length := by
  have hlt := h.lt
  have hi := h.inside hj
  have := hlt.2.2.1 hi.1
  have := hlt.2.2.2 hi.2
  unfold fuelFor
  exact ⟨by omega, by omega⟩

/-- After an item that was decoded into an `interface{}`. -/
theorem MPair.after {P P' : List (Nat × Nat)} {i1 i2 j1 j2 : Nat} {s1 s2 : MSt} {d1 d2 : DState}
    (h : MPair P i1 i2 s1 s2) (g : Twin B1 B2 .item P i1 i2 j1 j2 P') (hd : Pair P' j1 j2 d1 d2) :
    MPair P' j1 j2 { s1 with d := d1 } { s2 with d := d2 } := by
  have hlt := g.lt
  refine ⟨hd, h.mem, ?_, fun o ho => h.fresh1 o (by omega), fun o ho => h.fresh2 o (by omega)⟩
  intro o1 o2 ho
  rcases g.adds _ ho with h' | ⟨h1, h2⟩
  · exact h.typed o1 o2 h'
  · exact (h.fresh1 o1 h1).trans (h.fresh2 o2 h2).symm

/-- An item that is decoded into an `interface{}`. -/
theorem twin_lift {cfg : DCfg} (hl1 : B1.length ≤ maxSize) (hl2 : B2.length ≤ maxSize) {P P' : List (Nat × Nat)}
    {i1 i2 j1 j2 : Nat} (g : Twin B1 B2 .item P i1 i2 j1 j2 P') {s1 s2 : MSt} (hs : MPair P i1 i2 s1 s2) (loc : Loc) :
    BothMem (MMeet P' j1 j2) (M.lift (decode cfg B1 (fuelFor B1.length) i1 loc) s1)
      (M.lift (decode cfg B2 (fuelFor B2.length) i2 loc) s2) := by
  obtain ⟨f1, f2⟩ := fuel_enough g rfl
  have hr := twin_run (cfg := cfg) hl1 hl2 g _ _ _ _ f1 f2 hs.d loc
  unfold M.lift
  cases e1 : decode cfg B1 (fuelFor B1.length) i1 loc s1.d with
  | mk r1 t1 =>
    cases e2 : decode cfg B2 (fuelFor B2.length) i2 loc s2.d with
    | mk r2 t2 =>
      rw [e1, e2] at hr
      cases r1 with
      | error e =>
        cases r2 with
        | error e' => exact hr
        | ok x => exact absurd hr id
      | ok x =>
        cases r2 with
        | error e' => exact absurd hr id
        | ok y => exact ⟨hr.1, hr.2.1, hs.after g hr.2.2⟩

theorem M.lift_bind (x : D α) (f : α → D β) : M.lift (x >>= f) = (M.lift x >>= fun a => M.lift (f a)) := by
  funext s
  rw [M.bind_apply]
  show (match D.bind x f s.d with | (r, d) => (r, { s with d := d })) = _
  unfold M.lift D.bind
  cases x s.d with
  | mk r d => cases r <;> rfl

theorem twin_fresh {cfg : DCfg} (hl1 : B1.length ≤ maxSize) (hl2 : B2.length ≤ maxSize) {P P' : List (Nat × Nat)}
    {i1 i2 j1 j2 : Nat} (g : Twin B1 B2 .item P i1 i2 j1 j2 P') {s1 s2 : MSt} (hs : MPair P i1 i2 s1 s2) :
    BothMem (fun x y t1 t2 => x.1 = j1 ∧ y.1 = j2 ∧ x.2 = y.2 ∧ MPair P' j1 j2 t1 t2)
      (M.lift (decodeFresh cfg B1 i1) s1) (M.lift (decodeFresh cfg B2 i2) s2) := by
  unfold decodeFresh
  simp only [M.lift_bind]
  refine BothMem.uniform (Uniform.alloc _) hs fun a t1 t2 ht => ?_
  refine BothMem.bind (twin_lift hl1 hl2 g ht _) ?_
  rintro x y u1 u2 ⟨rfl, rfl, hu⟩
  refine BothMem.uniform (Uniform.readLoc _) hu fun v w1 w2 hw => ?_
  exact ⟨rfl, rfl, rfl, hw⟩

/-- What the decoder for typed variables does with corresponding jobs. -/
def TwinMem (cfg : DCfg) (tc : TCfg) (B1 B2 : Bytes) (job : TwinJob) (P : List (Nat × Nat)) (i1 i2 j1 j2 : Nat)
    (P' : List (Nat × Nat)) : Prop :=
  ∀ f1 f2 s1 s2, j1 ≤ i1 + f1 → j2 ≤ i2 + f2 → MPair P i1 i2 s1 s2 →
    match job with
    | .item => ∀ t, BothMem (MMeet P' j1 j2) (decodeMem cfg tc B1 f1 i1 t s1) (decodeMem cfg tc B2 f2 i2 t s2)
    | .items n => ∀ t len i, BothMem (MMeet P' j1 j2) (elemsMem cfg B1 (decodeMem cfg tc B1 f1) t len n i i1 s1)
        (elemsMem cfg B2 (decodeMem cfg tc B2 f2) t len n i i2 s2)
    | .pairs n =>
      (∀ e t, BothMem (MMeet P' j1 j2) (entriesMem B1 (decodeMem cfg tc B1 f1) e t n i1 s1)
        (entriesMem B2 (decodeMem cfg tc B2 f2) e t n i2 s2)) ∧
      ∀ fs t, BothMem (MMeet P' j1 j2) (fieldsMem cfg tc B1 (decodeMem cfg tc B1 f1) fs t n i1 s1)
        (fieldsMem cfg tc B2 (decodeMem cfg tc B2 f2) fs t n i2 s2)

theorem trackMem_apply (i : Nat) (t : Target) (s : MSt) : trackMem i t s = (.ok (),
    { d := { s.d with
        heap := (s.d.heap.alloc (.cell .unsupported)).2,
        tracked := fun o => if o = i then some (.cell s.d.heap.next) else s.d.tracked o },
      mem := s.mem,
      typed := fun o => if o = i then some (s.d.heap.next, t) else s.typed o }) := rfl

/-- From the tag byte to what follows it. -/
theorem twinMem_head {cfg : DCfg} {tc : TCfg} (hl1 : B1.length ≤ maxSize) (hl2 : B2.length ≤ maxSize)
    {P P' : List (Nat × Nat)} {i1 i2 j1 j2 : Nat} {b : UInt8} (h1 : B1[i1]? = some b) (h2 : B2[i2]? = some b)
    (hp : classify (b.toNat % 128) ≠ .pad) (g : Twin B1 B2 .item P i1 i2 j1 j2 P')
    (hr : ∀ f1 f2 s1 s2 t, j1 ≤ i1 + 1 + f1 → j2 ≤ i2 + 1 + f2 → MPair ((i1, i2) :: P) (i1 + 1) (i2 + 1) s1 s2 →
      BothMem (MMeet P' j1 j2)
        (memC cfg tc B1 (decodeMem cfg tc B1 f1) (classify (b.toNat % 128)) (i1 + 1) t (b.toNat % 128) s1)
        (memC cfg tc B2 (decodeMem cfg tc B2 f2) (classify (b.toNat % 128)) (i2 + 1) t (b.toNat % 128) s2)) :
    TwinMem cfg tc B1 B2 .item P i1 i2 j1 j2 P' := by
  intro f1 f2 s1 s2 hf1 hf2 hs t
  have hlt := g.lt
  simp only [TwinJob.need] at hlt
  obtain ⟨f1, rfl⟩ : ∃ f, f1 = f + 1 := ⟨f1 - 1, by omega⟩
  obtain ⟨f2, rfl⟩ : ∃ f, f2 = f + 1 := ⟨f2 - 1, by omega⟩
  have hb : b.toNat % 128 ≠ 0x3f := by
    intro h; rw [h] at hp; exact hp (by decide)
  have hx1 := (List.getElem?_eq_some_iff.1 h1).1
  have hx2 := (List.getElem?_eq_some_iff.1 h2).1
  rw [decodeMem, decodeMem, M.bind_eq (M.failIf_pass (by omega)), M.bind_eq (M.failIf_pass (by omega))]
  refine BothMem.uniform (Uniform.read t) hs fun v t1 t2 ht => ?_
  by_cases hi : t.ty = .iface ∧ v.isZero = true
  · rw [if_pos hi, if_pos hi]
    refine BothMem.bind (twin_fresh hl1 hl2 g ht) ?_
    rintro ⟨x, w⟩ ⟨y, w'⟩ u1 u2 ⟨rfl, rfl, rfl, hu⟩
    dsimp only
    by_cases hw : w ≠ .nil
    · rw [if_pos hw, if_pos hw]
      exact BothMem.uniform (Uniform.write _ _) hu fun _ w1 w2 hw => ⟨rfl, rfl, hw⟩
    · rw [if_neg hw, if_neg hw]
      exact ⟨rfl, rfl, hu⟩
  · rw [if_neg hi, if_neg hi, M.bind_eq (M.lift_eq (D.lift_ok.2 ⟨skipPad_ok.2 (TagAt.here' h1 hb), rfl⟩)),
      M.bind_eq (M.lift_eq (D.lift_ok.2 ⟨skipPad_ok.2 (TagAt.here' h2 hb), rfl⟩))]
    dsimp only
    rw [tagMem_eq _ _ _ _ _ _ _ (untracked_lt b), tagMem_eq _ _ _ _ _ _ _ (untracked_lt b), unflag_nat]
    by_cases hf : 128 ≤ b.toNat
    · rw [if_pos ((flag_bit b).2 hf), if_pos ((flag_bit b).2 hf), M.bind_eq (trackMem_apply _ _ _),
        M.bind_eq (trackMem_apply _ _ _)]
      refine hr _ _ _ _ t (by omega) (by omega) ⟨⟨?_, ht.d.depth1, ht.d.depth2, ?_, ?_, ?_⟩, ht.mem, ?_, ?_, ?_⟩
      · dsimp only; rw [ht.d.heap]
      · intro o1 o2 ho
        dsimp only
        rcases List.mem_cons.1 ho with h | h
        · cases h
          exact ⟨by omega, by omega, by rw [if_pos rfl, if_pos rfl, ht.d.heap]⟩
        · obtain ⟨x, y, z⟩ := ht.d.seen o1 o2 h
          refine ⟨by omega, by omega, ?_⟩
          rw [if_neg (by omega), if_neg (by omega)]; exact z
      · intro o ho
        dsimp only
        rw [if_neg (by omega)]; exact ht.d.fresh1 o (by omega)
      · intro o ho
        dsimp only
        rw [if_neg (by omega)]; exact ht.d.fresh2 o (by omega)
      · intro o1 o2 ho
        dsimp only
        rcases List.mem_cons.1 ho with h | h
        · cases h
          rw [if_pos rfl, if_pos rfl, ht.d.heap]
        · obtain ⟨x, y, z⟩ := ht.d.seen o1 o2 h
          rw [if_neg (by omega), if_neg (by omega)]; exact ht.typed o1 o2 h
      · intro o ho
        dsimp only
        rw [if_neg (by omega)]; exact ht.fresh1 o (by omega)
      · intro o ho
        dsimp only
        rw [if_neg (by omega)]; exact ht.fresh2 o (by omega)
    · rw [if_neg (fun h => hf ((flag_bit b).1 h)), if_neg (fun h => hf ((flag_bit b).1 h))]
      refine hr _ _ _ _ t (by omega) (by omega) ⟨⟨ht.d.heap, ht.d.depth1, ht.d.depth2, ?_, ?_, ?_⟩, ht.mem, ?_, ?_, ?_⟩
      · intro o1 o2 ho
        rcases List.mem_cons.1 ho with h | h
        · cases h
          exact ⟨by omega, by omega, by rw [ht.d.fresh1 _ (Nat.le_refl _), ht.d.fresh2 _ (Nat.le_refl _)]⟩
        · obtain ⟨x, y, z⟩ := ht.d.seen o1 o2 h
          exact ⟨by omega, by omega, z⟩
      · intro o ho
        exact ht.d.fresh1 o (by omega)
      · intro o ho
        exact ht.d.fresh2 o (by omega)
      · intro o1 o2 ho
        rcases List.mem_cons.1 ho with h | h
        · cases h
          rw [ht.fresh1 _ (Nat.le_refl _), ht.fresh2 _ (Nat.le_refl _)]
        · exact ht.typed o1 o2 h
      · intro o ho
        exact ht.fresh1 o (by omega)
      · intro o ho
        exact ht.fresh2 o (by omega)

/-- The end of an item without parts. -/
theorem twinMem_leaf {P : List (Nat × Nat)} {i1 i2 j1 j2 : Nat} {s1 s2 : MSt} {x : M α} (hx : Uniform x)
    (hs : MPair P i1 i2 s1 s2) (h1 : i1 ≤ j1) (h2 : i2 ≤ j2) :
    BothMem (MMeet P j1 j2) ((do let _ ← x; pure j1 : M Nat) s1) ((do let _ ← x; pure j2 : M Nat) s2) :=
  BothMem.uniform hx hs fun _ _ _ ht => ⟨rfl, rfl, ht.move h1 h2⟩

theorem twinMem_array {cfg : DCfg} {tc : TCfg} (hl1 : B1.length ≤ maxSize) (hl2 : B2.length ≤ maxSize) {n : Nat}
    {P P' : List (Nat × Nat)} {i1 i2 j1 j2 : Nat} (g : Twin B1 B2 (.items n) P i1 i2 j1 j2 P') (hi1 : i1 ≤ B1.length)
    (hi2 : i2 ≤ B2.length) (ih : TwinMem cfg tc B1 B2 (.items n) P i1 i2 j1 j2 P') (f1 f2 : Nat) (s1 s2 : MSt)
    (t : Target) (hf1 : j1 ≤ i1 + f1) (hf2 : j2 ≤ i2 + f2) (hs : MPair P i1 i2 s1 s2) :
    BothMem (MMeet P' j1 j2) (arrayMem cfg B1 (decodeMem cfg tc B1 f1) i1 n t s1)
      (arrayMem cfg B2 (decodeMem cfg tc B2 f2) i2 n t s2) := by
  have hlt := g.lt
  simp only [TwinJob.need] at hlt
  have := hlt.2.2.1 hi1
  have := hlt.2.2.2 hi2
  have hneg : ¬ ((n : Int) < 0 ∨ (n : Int) > maxInt32) := by
    simp only [maxSize] at hl1; simp only [maxInt32]; omega
  unfold arrayMem
  rw [M.bind_eq (M.failIf_pass hneg), Int.toNat_natCast, M.bind_eq (M.failIf_pass (by omega)),
    M.bind_eq (M.failIf_pass hneg), M.bind_eq (M.failIf_pass (by omega))]
  cases hty : t.ty with
  | slice e =>
    refine BothMem.uniform (Uniform.read t) hs fun v t1 t2 ht => ?_
    have key : ∀ t1 t2, MPair P i1 i2 t1 t2 → BothMem (MMeet P' j1 j2)
        ((do let v ← t.read; elemsMem cfg B1 (decodeMem cfg tc B1 f1) t v.len n 0 i1 : M Nat) t1)
        ((do let v ← t.read; elemsMem cfg B2 (decodeMem cfg tc B2 f2) t v.len n 0 i2 : M Nat) t2) := by
      intro t1 t2 ht
      exact BothMem.uniform (Uniform.read t) ht fun v u1 u2 hu => ih f1 f2 _ _ hf1 hf2 hu t _ _
    by_cases hz : v.len = 0
    · rw [if_pos hz, if_pos hz]
      exact BothMem.uniform (Uniform.makeSlice _ _) ht fun _ u1 u2 hu => key u1 u2 hu
    · rw [if_neg hz, if_neg hz]
      exact key t1 t2 ht
  | arr m e => exact ih f1 f2 _ _ hf1 hf2 hs t _ _
  | _ => exact rfl

theorem twinMem_hash {cfg : DCfg} {tc : TCfg} (hl1 : B1.length ≤ maxSize) (hl2 : B2.length ≤ maxSize) {n : Nat}
    {P P' : List (Nat × Nat)} {i1 i2 j1 j2 : Nat} (g : Twin B1 B2 (.pairs n) P i1 i2 j1 j2 P') (hi1 : i1 ≤ B1.length)
    (hi2 : i2 ≤ B2.length) (ih : TwinMem cfg tc B1 B2 (.pairs n) P i1 i2 j1 j2 P') (f1 f2 : Nat) (s1 s2 : MSt)
    (t : Target) (hf1 : j1 ≤ i1 + f1) (hf2 : j2 ≤ i2 + f2) (hs : MPair P i1 i2 s1 s2) :
    BothMem (MMeet P' j1 j2) (checkedHashMem cfg tc B1 (decodeMem cfg tc B1 f1) i1 n t s1)
      (checkedHashMem cfg tc B2 (decodeMem cfg tc B2 f2) i2 n t s2) := by
  have hlt := g.lt
  simp only [TwinJob.need] at hlt
  have := hlt.2.2.1 hi1
  have := hlt.2.2.2 hi2
  have main : ∀ (ty : Ty) (t : Target) s1 s2, MPair P i1 i2 s1 s2 → BothMem (MMeet P' j1 j2)
      (hashMem cfg tc B1 (decodeMem cfg tc B1 f1) i1 n ty t s1)
      (hashMem cfg tc B2 (decodeMem cfg tc B2 f2) i2 n ty t s2) := by
    intro ty
    induction ty with
    | map e _ =>
      intro t s1 s2 hs
      unfold hashMem
      refine BothMem.uniform (Uniform.read t) hs fun v t1 t2 ht => ?_
      by_cases hz : v.isZero = true
      · rw [if_pos hz, if_pos hz]
        exact BothMem.uniform Uniform.newMap ht fun _ u1 u2 hu => BothMem.uniform (Uniform.write _ _) hu fun _ w1 w2 hw =>
          (ih f1 f2 _ _ hf1 hf2 hw).1 e t
      · rw [if_neg hz, if_neg hz]
        exact (ih f1 f2 _ _ hf1 hf2 ht).1 e t
    | ptr e ih' =>
      intro t s1 s2 hs
      unfold hashMem
      exact BothMem.uniform (Uniform.deref t e) hs fun t' u1 u2 hu => ih' t' u1 u2 hu
    | strct id =>
      intro t s1 s2 hs
      unfold hashMem
      exact (ih f1 f2 _ _ hf1 hf2 hs).2 _ t
    | _ => intro t s1 s2 hs; unfold hashMem; exact rfl
  unfold checkedHashMem
  rw [M.bind_eq (M.lift_eq (checkHash_pass s1.d (by omega) (by omega))),
    M.bind_eq (M.lift_eq (checkHash_pass s2.d (by omega) (by omega))), Int.toNat_natCast]
  exact main _ t _ _ hs

theorem twinMem_refp {cfg : DCfg} (hl1 : B1.length ≤ maxSize) (hl2 : B2.length ≤ maxSize) {P : List (Nat × Nat)}
    {i1 i2 o1 o2 j1 j2 : Nat} (v1 : Vint wrtDialect B1 i1 o1 j1) (v2 : Vint wrtDialect B2 i2 o2 j2)
    (ho : (o1, o2) ∈ P) (s1 s2 : MSt) (t : Target) (hs : MPair P i1 i2 s1 s2) :
    BothMem (MMeet P j1 j2) (refpMem cfg B1 i1 true t s1) (refpMem cfg B2 i2 true t s2) := by
  obtain ⟨e1, -, hj1⟩ := varint_twin v1 s1.d
  obtain ⟨e2, -, hj2⟩ := varint_twin v2 s2.d
  have hk1 := v1.lt
  have hk2 := v2.lt
  have hb1 := v1.le_length
  have hb2 := v2.le_length
  obtain ⟨hx, hy, ht⟩ := hs.d.seen o1 o2 ho
  have hty := hs.typed o1 o2 ho
  simp only [maxSize] at hl1 hl2
  unfold refpMem
  rw [M.bind_eq (M.lift_eq e1), M.bind_eq (M.lift_eq e2)]
  dsimp only
  rw [hj1, hj2, sgn_small (by omega), sgn_small (by omega), M.bind_eq (M.failIf_pass (by omega)),
    M.bind_eq (M.failIf_pass (by omega)), Int.toNat_natCast, Int.toNat_natCast,
    M.bind_eq (show M.get s1 = (.ok s1, s1) from rfl), M.bind_eq (show M.get s2 = (.ok s2, s2) from rfl), ht, hty]
  have leaf : ∀ {x : M Unit}, Uniform x → ∀ t1 t2, MPair P i1 i2 t1 t2 →
      BothMem (MMeet P j1 j2) ((do x; pure j1 : M Nat) t1) ((do x; pure j2 : M Nat) t2) :=
    fun hx t1 t2 ht => twinMem_leaf hx ht (by omega) (by omega)
  have plain : ∀ loc, BothMem (MMeet P j1 j2)
      ((do let v ← M.lift (readLoc loc)
           t.fromAny cfg true (if v = .nil then .zero else .iface v) false
           pure j1 : M Nat) s1)
      ((do let v ← M.lift (readLoc loc)
           t.fromAny cfg true (if v = .nil then .zero else .iface v) false
           pure j2 : M Nat) s2) := fun loc =>
    BothMem.uniform (Uniform.readLoc loc) hs fun v t1 t2 ht => leaf (Uniform.fromAny _ _ _ _ _) t1 t2 ht
  cases s2.d.tracked o2 with
  | none => exact rfl
  | some loc =>
    dsimp only
    cases s2.typed o2 with
    | none => exact plain loc
    | some x =>
      obtain ⟨a, rv⟩ := x
      dsimp only
      by_cases ha : loc = .cell a
      · rw [if_pos ha, if_pos ha]
        refine BothMem.uniform (Uniform.read rv) hs fun v t1 t2 ht => ?_
        have other : ∀ v : MVal, BothMem (MMeet P j1 j2)
            ((do M.failIf (rv.ro = true) (.panic "reflect: using unexported field"); t.assign rv.ty v; pure j1 : M Nat) t1)
            ((do M.failIf (rv.ro = true) (.panic "reflect: using unexported field"); t.assign rv.ty v; pure j2 : M Nat) t2) :=
          fun v => BothMem.uniform (Uniform.failIf _) ht fun _ u1 u2 hu => leaf (Uniform.assign _ _ _) u1 u2 hu
        cases v with
        | ptr l =>
          dsimp only
          by_cases hp : rv.ty = .ptr .iface
          · rw [if_pos hp, if_pos hp, hs.mem]
            exact leaf (Uniform.fromAny _ _ _ _ _) _ _ ht
          · rw [if_neg hp, if_neg hp]
            exact other _
        | _ => exact other _
      · rw [if_neg ha, if_neg ha]
        exact plain loc

/-- An item that a pointer to an object or weak reference is made for (PerlCompat). -/
theorem twinMem_perl {cfg : DCfg} (hl1 : B1.length ≤ maxSize) (hl2 : B2.length ≤ maxSize) {P P' : List (Nat × Nat)}
    {i1 i2 j1 j2 : Nat} (g : Twin B1 B2 .item P i1 i2 j1 j2 P') (s1 s2 : MSt) (t : Target) (v : Val)
    (hs : MPair P i1 i2 s1 s2) :
    BothMem (MMeet P' j1 j2)
      ((do let a ← M.lift (allocVar v)
           t.setPerl (.ptr false a)
           M.lift (decode cfg B1 (fuelFor B1.length) i1 (.field a)) : M Nat) s1)
      ((do let a ← M.lift (allocVar v)
           t.setPerl (.ptr false a)
           M.lift (decode cfg B2 (fuelFor B2.length) i2 (.field a)) : M Nat) s2) :=
  BothMem.uniform (Uniform.alloc _) hs fun _ _ _ ht => BothMem.uniform (Uniform.setPerl _ _) ht fun _ _ _ hu =>
    twin_lift hl1 hl2 g hu _

theorem string_mem (hl1 : B1.length ≤ maxSize) (hl2 : B2.length ≤ maxSize) {P : List (Nat × Nat)} {i1 i2 k1 k2 : Nat}
    {key : Bytes} (c1 : Strish wrtDialect B1 false i1 key k1) (c2 : Strish wrtDialect B2 false i2 key k2) {s1 s2 : MSt}
    (hs : MPair P i1 i2 s1 s2) : ∃ t1 t2, M.lift (decodeStringish B1 i1) s1 = (.ok (key, k1), t1) ∧
      M.lift (decodeStringish B2 i2) s2 = (.ok (key, k2), t2) ∧ MPair P k1 k2 t1 t2 := by
  have hk1 := c1.lt
  have hk2 := c2.lt
  obtain ⟨t1, e1, a1, a2, a3⟩ := string_twin hl1 c1 hs.d.depth1
  obtain ⟨t2, e2, b1, b2, b3⟩ := string_twin hl2 c2 hs.d.depth2
  exact ⟨_, _, M.lift_eq e1, M.lift_eq e2,
    (hs.withD (hs.d.step (by rw [a1, b1, hs.d.heap]) a2 b2 a3 b3)).move (by omega) (by omega)⟩

theorem twinMem_freeze {cfg : DCfg} {tc : TCfg} (hl1 : B1.length ≤ maxSize) (hl2 : B2.length ≤ maxSize)
    {P P' : List (Nat × Nat)} {i1 i2 k1 k2 j1 j2 : Nat} {cls : Bytes} (c1 : Strish wrtDialect B1 false i1 cls k1)
    (c2 : Strish wrtDialect B2 false i2 cls k2) (p1 : Span B1 k1 [0x28, 0x2b] (k1 + 2))
    (p2 : Span B2 k2 [0x28, 0x2b] (k2 + 2)) (g : Twin B1 B2 .item P k1 k2 j1 j2 P') (s1 s2 : MSt) (t : Target)
    (hs : MPair P i1 i2 s1 s2) :
    BothMem (MMeet P' j1 j2) (freezeMem cfg tc B1 i1 t false s1) (freezeMem cfg tc B2 i2 t false s2) := by
  obtain ⟨t1, t2, e1, e2, ht⟩ := string_mem hl1 hl2 c1 c2 hs
  have hd : ∀ {B : Bytes} {k : Nat}, Span B k [0x28, 0x2b] (k + 2) → B[k]? = some 0x28 ∧ B[k + 1]? = some 0x2b := by
    intro B k h
    constructor
    · have := getElem?_of_span h 0 (by simp); simpa using this
    · have := getElem?_of_span h 1 (by simp); simpa using this
  obtain ⟨x1, y1⟩ := hd p1
  obtain ⟨x2, y2⟩ := hd p2
  have hz1 := (List.getElem?_eq_some_iff.mp y1).1
  have hz2 := (List.getElem?_eq_some_iff.mp y2).1
  have cn : ∀ (B : Bytes) i, decodeClassName B i false = decodeStringish B i := by
    intro B i; unfold decodeClassName; rw [if_neg (by simp)]
  unfold freezeMem
  rw [cn, cn, M.bind_eq e1, M.bind_eq e2]
  dsimp only
  rw [M.bind_eq (M.failIf_pass (by omega)), M.bind_eq (M.lift_eq (byteAt_ok.2 ⟨x1, rfl⟩)),
    M.bind_eq (M.lift_eq (byteAt_ok.2 ⟨y1, rfl⟩)), M.bind_eq (M.failIf_pass (by decide)),
    M.bind_eq (M.failIf_pass (by omega)), M.bind_eq (M.lift_eq (byteAt_ok.2 ⟨x2, rfl⟩)),
    M.bind_eq (M.lift_eq (byteAt_ok.2 ⟨y2, rfl⟩)), M.bind_eq (M.failIf_pass (by decide))]
  refine BothMem.bind (twin_fresh hl1 hl2 g ht) ?_
  rintro ⟨x, w⟩ ⟨y, w'⟩ u1 u2 ⟨rfl, rfl, rfl, hu⟩
  dsimp only
  split
  · refine BothMem.uniform (Uniform.failIf _) hu fun _ v1 v2 hv => BothMem.uniform (Uniform.readLoc _) hv fun r w1 w2 hw => ?_
    split
    · by_cases hpc : cfg.perlCompat = true
      · rw [if_pos hpc, if_pos hpc]
        exact BothMem.uniform (Uniform.alloc _) hw fun _ _ _ hx => twinMem_leaf (Uniform.setPerl _ _) hx (Nat.le_refl _) (Nat.le_refl _)
      · rw [if_neg hpc, if_neg hpc]
        refine BothMem.uniform (Uniform.unmarshal _ _ _) hw fun r y1 y2 hy => ?_
        by_cases hr : r = true
        · rw [if_pos hr, if_pos hr]
          exact ⟨rfl, rfl, hy⟩
        · rw [if_neg hr, if_neg hr]
          refine BothMem.uniform (Uniform.read _) hy fun r z1 z2 hz => ?_
          split
          · exact twinMem_leaf (Uniform.makeSlice _ _) hz (Nat.le_refl _) (Nat.le_refl _)
          · exact rfl
    · exact rfl
  · exact rfl

/-- The decoder for typed variables treats twins alike. -/
theorem twinMem_run {cfg : DCfg} {tc : TCfg} (hl1 : B1.length ≤ maxSize) (hl2 : B2.length ≤ maxSize) {job : TwinJob}
    {P P' : List (Nat × Nat)} {i1 i2 j1 j2 : Nat} (h : Twin B1 B2 job P i1 i2 j1 j2 P') :
    TwinMem cfg tc B1 B2 job P i1 i2 j1 j2 P' := by
  have hd : ∀ {B : Bytes} {i : Nat} {b : UInt8}, B[i]? = some b → i + 1 ≤ B.length :=
    fun h => (List.getElem?_eq_some_iff.mp h).1
  induction h with
  | @bare P i1 i2 b h1 h2 hc =>
    refine twinMem_head hl1 hl2 h1 h2 (by intro h; rw [h] at hc; cases hc) (.bare h1 h2 hc) ?_
    intro f1 f2 s1 s2 t _ _ hs
    unfold memC
    cases h : classify (b.toNat % 128) <;> rw [h] at hc <;> try cases hc
    · exact twinMem_leaf (Uniform.setInt _ _) hs (Nat.le_refl _) (Nat.le_refl _)
    · exact twinMem_leaf (Uniform.undef _ _ _) hs (Nat.le_refl _) (Nat.le_refl _)
    · exact twinMem_leaf (Uniform.undef _ _ _) hs (Nat.le_refl _) (Nat.le_refl _)
    · exact twinMem_leaf (Uniform.setBool _ _) hs (Nat.le_refl _) (Nat.le_refl _)
    · exact twinMem_leaf (Uniform.setBool _ _) hs (Nat.le_refl _) (Nat.le_refl _)
  | num h1 h2 hc v1 v2 =>
    have hk1 := v1.lt
    have hk2 := v2.lt
    refine twinMem_head hl1 hl2 h1 h2 (by rcases hc with hc | hc <;> rw [hc] <;> simp) (.num h1 h2 hc v1 v2) ?_
    intro f1 f2 s1 s2 t _ _ hs
    obtain ⟨e1, -, hj1⟩ := varint_twin v1 s1.d
    obtain ⟨e2, -, hj2⟩ := varint_twin v2 s2.d
    unfold memC
    rcases hc with hc | hc <;> rw [hc] <;> dsimp only <;> rw [M.bind_eq (M.lift_eq e1), M.bind_eq (M.lift_eq e2)] <;>
      dsimp only <;> rw [hj1, hj2]
    · exact twinMem_leaf (Uniform.setInt _ _) hs (by omega) (by omega)
    · exact twinMem_leaf (Uniform.setInt _ _) hs (by omega) (by omega)
  | float h1 h2 hc p1 p2 hl =>
    have hk1 := p1.2
    have hk2 := p2.2
    refine twinMem_head hl1 hl2 h1 h2 (by rw [hc]; simp) (.float h1 h2 hc p1 p2 hl) ?_
    intro f1 f2 s1 s2 t _ _ hs
    unfold memC
    rw [hc]
    dsimp only
    rw [M.bind_eq (M.lift_eq (decodeFloat_of s1.d p1 hl)), M.bind_eq (M.lift_eq (decodeFloat_of s2.d p2 hl))]
    exact twinMem_leaf (Uniform.setFloat _ _ _) hs (by omega) (by omega)
  | double h1 h2 hc p1 p2 hl =>
    have hk1 := p1.2
    have hk2 := p2.2
    refine twinMem_head hl1 hl2 h1 h2 (by rw [hc]; simp) (.double h1 h2 hc p1 p2 hl) ?_
    intro f1 f2 s1 s2 t _ _ hs
    unfold memC
    rw [hc]
    dsimp only
    rw [M.bind_eq (M.lift_eq (decodeDouble_of s1.d p1 hl)), M.bind_eq (M.lift_eq (decodeDouble_of s2.d p2 hl))]
    exact twinMem_leaf (Uniform.setFloat _ _ _) hs (by omega) (by omega)
  | str h1 h2 hc v1 v2 p1 p2 =>
    have hk1 := v1.lt
    have hk2 := v2.lt
    have hm1 := p1.2
    have hm2 := p2.2
    refine twinMem_head hl1 hl2 h1 h2 (by rcases hc with hc | hc <;> rw [hc] <;> simp) (.str h1 h2 hc v1 v2 p1 p2) ?_
    intro f1 f2 s1 s2 t _ _ hs
    obtain ⟨e1, -, hj1⟩ := varint_twin v1 s1.d
    obtain ⟨e2, -, hj2⟩ := varint_twin v2 s2.d
    obtain ⟨t1, d1, a1, a2, a3⟩ := twin_binary hl1 p1 v1.le_length s1.d
    obtain ⟨t2, d2, b1, b2, b3⟩ := twin_binary hl2 p2 v2.le_length s2.d
    have ht := hs.withD (hs.d.step (by rw [a1, b1, hs.d.heap]) a2 b2 a3 b3)
    unfold memC
    rcases hc with hc | hc <;> rw [hc] <;> dsimp only <;> rw [M.bind_eq (M.lift_eq e1), M.bind_eq (M.lift_eq e2)] <;>
      dsimp only <;> rw [hj1, hj2, M.bind_eq (M.lift_eq d1), M.bind_eq (M.lift_eq d2)]
    · exact twinMem_leaf (Uniform.setBinary _ _) ht (by omega) (by omega)
    · exact twinMem_leaf (Uniform.setString _ _) ht (by omega) (by omega)
  | @short P i1 i2 b s j1 j2 h1 h2 hc p1 p2 =>
    have hm1 := p1.2
    have hm2 := p2.2
    refine twinMem_head hl1 hl2 h1 h2 (by rw [hc]; simp) (.short h1 h2 hc p1 p2) ?_
    intro f1 f2 s1 s2 t _ _ hs
    obtain ⟨t1, d1, a1, a2, a3⟩ := twin_binary hl1 p1 (hd h1) s1.d
    obtain ⟨t2, d2, b1, b2, b3⟩ := twin_binary hl2 p2 (hd h2) s2.d
    have ht := hs.withD (hs.d.step (by rw [a1, b1, hs.d.heap]) a2 b2 a3 b3)
    have hn := classify_num (n := s.length) (b := b.toNat % 128) (by omega) (.inl hc)
    rw [sgn_small (by omega)] at d1 d2
    unfold memC
    rw [hc]
    dsimp only
    rw [M.bind_eq (M.lift_eq d1), M.bind_eq (M.lift_eq d2)]
    exact twinMem_leaf (Uniform.setBinary _ _) ht (by omega) (by omega)
  | @array P i1 i2 b n k1 k2 j1 j2 P' h1 h2 hc v1 v2 g ih =>
    have hk1 := v1.lt
    have hk2 := v2.lt
    have hlt := g.lt
    simp only [TwinJob.need] at hlt
    have := hlt.2.2.1 v1.le_length
    have hn : n < 2 ^ 63 := by simp only [maxSize] at hl1; omega
    refine twinMem_head hl1 hl2 h1 h2 (by rw [hc]; simp) (.array h1 h2 hc v1 v2 g) ?_
    intro f1 f2 s1 s2 t hf1 hf2 hs
    obtain ⟨e1, -, hj1⟩ := varint_twin v1 s1.d
    obtain ⟨e2, -, hj2⟩ := varint_twin v2 s2.d
    unfold memC
    rw [hc]
    dsimp only
    rw [M.bind_eq (M.lift_eq e1), M.bind_eq (M.lift_eq e2)]
    dsimp only
    rw [hj1, hj2, sgn_small hn]
    exact twinMem_array hl1 hl2 g v1.le_length v2.le_length ih f1 f2 _ _ t (by omega) (by omega)
      (hs.move (by omega) (by omega))
  | @hash P i1 i2 b n k1 k2 j1 j2 P' h1 h2 hc v1 v2 g ih =>
    have hk1 := v1.lt
    have hk2 := v2.lt
    have hlt := g.lt
    simp only [TwinJob.need] at hlt
    have := hlt.2.2.1 v1.le_length
    have hn : n < 2 ^ 63 := by simp only [maxSize] at hl1; omega
    refine twinMem_head hl1 hl2 h1 h2 (by rw [hc]; simp) (.hash h1 h2 hc v1 v2 g) ?_
    intro f1 f2 s1 s2 t hf1 hf2 hs
    obtain ⟨e1, -, hj1⟩ := varint_twin v1 s1.d
    obtain ⟨e2, -, hj2⟩ := varint_twin v2 s2.d
    unfold memC
    rw [hc]
    dsimp only
    rw [M.bind_eq (M.lift_eq e1), M.bind_eq (M.lift_eq e2)]
    dsimp only
    rw [hj1, hj2, sgn_small hn]
    exact twinMem_hash hl1 hl2 g v1.le_length v2.le_length ih f1 f2 _ _ t (by omega) (by omega)
      (hs.move (by omega) (by omega))
  | refn h1 h2 hc g ih =>
    refine twinMem_head hl1 hl2 h1 h2 (by rw [hc]; simp) (.refn h1 h2 hc g) ?_
    intro f1 f2 s1 s2 t hf1 hf2 hs
    unfold memC
    rw [hc]
    exact ih f1 f2 _ _ hf1 hf2 hs t
  | weaken h1 h2 hc g ih =>
    refine twinMem_head hl1 hl2 h1 h2 (by rw [hc]; simp) (.weaken h1 h2 hc g) ?_
    intro f1 f2 s1 s2 t hf1 hf2 hs
    unfold memC
    rw [hc]
    dsimp only
    by_cases hpc : cfg.perlCompat = true
    · rw [if_pos hpc, if_pos hpc]
      exact twinMem_perl hl1 hl2 g s1 s2 t _ hs
    · rw [if_neg hpc, if_neg hpc]
      exact ih f1 f2 _ _ hf1 hf2 hs t
  | refp h1 h2 hc v1 v2 ho =>
    refine twinMem_head hl1 hl2 h1 h2 (by rw [hc]; simp) (.refp h1 h2 hc v1 v2 ho) ?_
    intro f1 f2 s1 s2 t hf1 hf2 hs
    unfold memC
    rw [hc]
    exact twinMem_refp hl1 hl2 v1 v2 (List.mem_cons_of_mem _ ho) s1 s2 t hs
  | regexp h1 h2 hc p1 p2 m1 m2 =>
    have := p1.lt; have := p2.lt; have := m1.lt; have := m2.lt
    refine twinMem_head hl1 hl2 h1 h2 (by rw [hc]; simp) (.regexp h1 h2 hc p1 p2 m1 m2) ?_
    intro f1 f2 s1 s2 t hf1 hf2 hs
    obtain ⟨t1, t2, e1, e2, ht⟩ := string_mem hl1 hl2 p1 p2 hs
    obtain ⟨u1, u2, e3, e4, hu⟩ := string_mem hl1 hl2 m1 m2 ht
    have r1 : ∀ {B : Bytes} {s t u : MSt} {i k j : Nat} {p m : Bytes}, M.lift (decodeStringish B i) s = (.ok (p, k), t) →
        M.lift (decodeStringish B k) t = (.ok (m, j), u) → M.lift (decodeRegexp B i) s = (.ok (p, m, j), u) := by
      intro B s t u i k j p m h h'
      unfold decodeRegexp
      rw [M.lift_bind, M.bind_eq h]
      dsimp only
      rw [M.lift_bind, M.bind_eq h']
      rfl
    unfold memC
    rw [hc]
    dsimp only
    rw [M.bind_eq (r1 e1 e3), M.bind_eq (r1 e2 e4)]
    exact BothMem.uniform (Uniform.alloc _) hu fun _ _ _ hw =>
      twinMem_leaf (Uniform.setPerl _ _) hw (Nat.le_refl _) (Nat.le_refl _)
  | object h1 h2 hc c1 c2 g ih =>
    have := c1.lt; have := c2.lt
    have hlt := g.lt
    simp only [TwinJob.need] at hlt
    refine twinMem_head hl1 hl2 h1 h2 (by rw [hc]; simp) (.object h1 h2 hc c1 c2 g) ?_
    intro f1 f2 s1 s2 t hf1 hf2 hs
    obtain ⟨t1, t2, e1, e2, ht⟩ := string_mem hl1 hl2 c1 c2 hs
    have cn : ∀ (B : Bytes) i, decodeClassName B i false = decodeStringish B i := by
      intro B i; unfold decodeClassName; rw [if_neg (by simp)]
    unfold memC
    rw [hc]
    dsimp only
    rw [cn, cn, M.bind_eq e1, M.bind_eq e2]
    dsimp only
    by_cases hpc : cfg.perlCompat = true
    · rw [if_pos hpc, if_pos hpc]
      exact twinMem_perl hl1 hl2 g _ _ t _ ht
    · rw [if_neg hpc, if_neg hpc]
      exact ih f1 f2 _ _ (by omega) (by omega) ht t
  | freeze h1 h2 hc c1 c2 p1 p2 g ih =>
    refine twinMem_head hl1 hl2 h1 h2 (by rw [hc]; simp) (.freeze h1 h2 hc c1 c2 p1 p2 g) ?_
    intro f1 f2 s1 s2 t hf1 hf2 hs
    unfold memC
    rw [hc]
    exact twinMem_freeze hl1 hl2 c1 c2 p1 p2 g _ _ t hs
  | itemsNil =>
    intro f1 f2 s1 s2 _ _ hs t len i
    unfold elemsMem
    exact ⟨rfl, rfl, hs⟩
  | itemsCons g1 g2 ih1 ih2 =>
    intro f1 f2 s1 s2 hf1 hf2 hs t len i
    have hlt1 := g1.lt
    have hlt2 := g2.lt
    simp only [TwinJob.need] at hlt1 hlt2
    unfold elemsMem
    by_cases hi : i < len
    · rw [if_pos hi, if_pos hi]
      have item : ∀ t1 t2 u, MPair _ _ _ t1 t2 → BothMem _ _ _ := fun t1 t2 u ht =>
        BothMem.bind (R' := MMeet _ _ _) (ih1 f1 f2 t1 t2 (by omega) (by omega) ht u)
          (f1 := fun idx => elemsMem cfg B1 (decodeMem cfg tc B1 f1) t len _ (i + 1) idx)
          (f2 := fun idx => elemsMem cfg B2 (decodeMem cfg tc B2 f2) t len _ (i + 1) idx)
          (by
            rintro x y u1 u2 ⟨rfl, rfl, hu⟩
            exact ih2 f1 f2 u1 u2 (by omega) (by omega) hu t len (i + 1))
      cases hty : t.ty with
      | slice e =>
        refine BothMem.uniform (Uniform.read t) hs fun v t1 t2 ht => ?_
        cases v with
        | slice l off len' cap =>
          exact BothMem.uniform (Uniform.failIf _) ht fun _ u1 u2 hu => item u1 u2 _ hu
        | _ => exact rfl
      | arr m e => exact item s1 s2 _ hs
      | _ => exact rfl
    · rw [if_neg hi, if_neg hi]
      refine BothMem.bind (twin_fresh hl1 hl2 g1 hs) ?_
      rintro ⟨x, w⟩ ⟨y, w'⟩ u1 u2 ⟨rfl, rfl, rfl, hu⟩
      exact ih2 f1 f2 _ _ (by omega) (by omega) hu t len (i + 1)
  | pairsNil =>
    intro f1 f2 s1 s2 _ _ hs
    exact ⟨fun e t => by unfold entriesMem; exact ⟨rfl, rfl, hs⟩, fun fs t => by unfold fieldsMem; exact ⟨rfl, rfl, hs⟩⟩
  | @pairsCons P i1 i2 key h1 h2 k1 k2 P1 n j1 j2 P' c1 c2 g1 g2 ih1 ih2 =>
    intro f1 f2 s1 s2 hf1 hf2 hs
    have hx1 := c1.lt
    have hx2 := c2.lt
    have hlt1 := g1.lt
    have hlt2 := g2.lt
    simp only [TwinJob.need] at hlt1 hlt2
    obtain ⟨t1, t2, e1, e2, ht⟩ := string_mem hl1 hl2 c1 c2 hs
    constructor
    · intro e t
      unfold entriesMem
      rw [M.bind_eq e1, M.bind_eq e2]
      dsimp only
      refine BothMem.uniform (Uniform.lookup t key) ht fun v u1 u2 hu => ?_
      cases v with
      | some v =>
        refine BothMem.bind (ih1 f1 f2 _ _ (by omega) (by omega) hu _) ?_
        rintro x y w1 w2 ⟨rfl, rfl, hw⟩
        exact (ih2 f1 f2 _ _ (by omega) (by omega) hw).1 e t
      | none =>
        refine BothMem.uniform (Uniform.newVar _) hu fun l v1 v2 hv => ?_
        refine BothMem.bind (ih1 f1 f2 _ _ (by omega) (by omega) hv _) ?_
        rintro x y w1 w2 ⟨rfl, rfl, hw⟩
        refine BothMem.uniform (Uniform.read _) hw fun v z1 z2 hz => ?_
        refine BothMem.uniform (Uniform.insert _ _ _) hz fun _ y1 y2 hy => ?_
        exact (ih2 f1 f2 _ _ (by omega) (by omega) hy).1 e t
    · intro fs t
      unfold fieldsMem
      rw [M.bind_eq e1, M.bind_eq e2]
      dsimp only
      cases findField tc fs key with
      | some i =>
        dsimp only
        cases fs[i]? with
        | some f =>
          refine BothMem.bind (ih1 f1 f2 _ _ (by omega) (by omega) ht _) ?_
          rintro x y w1 w2 ⟨rfl, rfl, hw⟩
          exact (ih2 f1 f2 _ _ (by omega) (by omega) hw).2 fs t
        | none => exact rfl
      | none =>
        dsimp only
        refine BothMem.bind (twin_fresh hl1 hl2 g1 ht) ?_
        rintro ⟨x, w⟩ ⟨y, w'⟩ u1 u2 ⟨rfl, rfl, rfl, hu⟩
        exact (ih2 f1 f2 _ _ (by omega) (by omega) hu).2 fs t

end

/-- Unmarshal into a typed variable treats twins alike. -/
theorem twin_unmarshalInto {cfg : DCfg} {tc : TCfg} {cs1 cs2 : Codecs} {d1 d2 B1 B2 : Bytes} {i1 i2 j1 j2 : Nat}
    {P : List (Nat × Nat)} (h1 : bodyInput cs1 d1 = .ok (B1, i1)) (h2 : bodyInput cs2 d2 = .ok (B2, i2))
    (hl1 : B1.length ≤ maxSize) (hl2 : B2.length ≤ maxSize) (h : Twin B1 B2 .item [] i1 i2 j1 j2 P)
    (ty : Ty) (l : Spot) (mem : Mem) :
    unmarshalInto cfg tc cs1 d1 ty l mem = unmarshalInto cfg tc cs2 d2 ty l mem := by
  obtain ⟨hf1, hf2⟩ := fuel_enough h rfl
  have hs : MPair [] i1 i2 { d := DState.init, mem := mem } { d := DState.init, mem := mem } :=
    ⟨⟨rfl, rfl, rfl, by simp, fun _ _ => rfl, fun _ _ => rfl⟩, rfl, by simp, fun _ _ => rfl, fun _ _ => rfl⟩
  have hr := twinMem_run (cfg := cfg) (tc := tc) hl1 hl2 h _ _ _ _ hf1 hf2 hs { ty := ty, place := .var l }
  unfold unmarshalInto
  rw [bodyOf_eq, bodyOf_eq, h1, h2]
  dsimp only
  cases e1 : decodeMem cfg tc B1 (fuelFor B1.length) i1 { ty := ty, place := .var l } { d := DState.init, mem := mem } with
  | mk r1 t1 =>
    cases e2 : decodeMem cfg tc B2 (fuelFor B2.length) i2 { ty := ty, place := .var l } { d := DState.init, mem := mem } with
    | mk r2 t2 =>
      rw [e1, e2] at hr
      cases r1 with
      | error e =>
        cases r2 with
        | error e' =>
          obtain rfl : e = e' := hr
          cases e <;> rfl
        | ok x => exact absurd hr id
      | ok x =>
        cases r2 with
        | error e' => exact absurd hr id
        | ok y =>
          have := hr.2.2.d.heap
          have := hr.2.2.mem
          simp only [*]

end Sereal
