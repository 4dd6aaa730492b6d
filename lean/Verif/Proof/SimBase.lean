import Verif.Spec.Depicts
import Verif.Proof.CallMem
import Verif.Proof.TypedTags
/-
The model with addresses follows the model without, as long as nothing is shared: the parts that do not
depend on the decoder.
-/
namespace Sereal

theorem Depicts.mono {tc : TCfg} {m : Mem} {ty : Ty} {B B' : Nat → Prop} {w : MVal} {x : TVal} (h : Depicts tc m ty B w x)
    (hB : ∀ b, B b → B' b) : Depicts tc m ty B' w x := by
  cases h with
  | zero => exact .zero
  | bool => exact .bool
  | int => exact .int
  | uint => exact .uint
  | f32 => exact .f32
  | f64 => exact .f64
  | str => exact .str
  | iface => exact .iface
  | thawed => exact .thawed
  | arr P h1 h2 h3 h4 => exact .arr P h1 (fun i b h => hB b (h2 i b h)) h3 h4
  | strct P h1 h2 h3 h4 => exact .strct P h1 (fun i b h => hB b (h2 i b h)) h3 h4
  | slice P h1 h2 h3 h4 h5 h6 => exact .slice P h1 h2 (hB _ h3) (fun i b h => ⟨hB b (h4 i b h).1, (h4 i b h).2⟩) h5 h6
  | map P h1 h2 h3 h4 h5 => exact .map P (hB _ h1) (fun k b h => ⟨hB b (h2 k b h).1, (h2 k b h).2⟩) h3 h4 h5
  | ptr P h1 h2 h3 => exact .ptr P (hB _ h1) (fun b h => ⟨hB b (h2 b h).1, (h2 b h).2⟩) h3

theorem Mem.get_congr {m m' : Mem} {l : Spot} (h : m'.vars l.base = m.vars l.base) : m'.get l = m.get l := by
  unfold Mem.get; rw [h]

/-- Only the memory in `B` matters. -/
theorem Depicts.frame {tc : TCfg} {m m' : Mem} {ty : Ty} {B : Nat → Prop} {w : MVal} {x : TVal} (h : Depicts tc m ty B w x)
    (hB : ∀ b, B b → m'.vars b = m.vars b ∧ m'.maps b = m.maps b) : Depicts tc m' ty B w x := by
  induction h with
  | zero => exact .zero
  | bool => exact .bool
  | int => exact .int
  | uint => exact .uint
  | f32 => exact .f32
  | f64 => exact .f64
  | str => exact .str
  | iface => exact .iface
  | thawed => exact .thawed
  | arr P h1 h2 h3 h4 ih => exact .arr P h1 h2 h3 fun i hi => ih i hi fun b hb => hB b (h2 i b hb)
  | strct P h1 h2 h3 h4 ih => exact .strct P h1 h2 h3 fun i f hf => ih i f hf fun b hb => hB b (h2 i b hb)
  | slice P h1 h2 h3 h4 h5 h6 ih =>
    refine .slice P h1 h2 h3 h4 h5 fun i hi => ?_
    have := ih i hi fun b hb => hB b (h4 i b hb).1
    rwa [Mem.get_congr (hB _ h3).1]
  | map P h1 h2 h3 h4 h5 ih =>
    have e := (hB _ h1).2
    refine .map P h1 h2 h3 (by rw [e]; exact h4) fun k w x hw hx => ?_
    rw [e] at hw
    exact ih k w x hw hx fun b hb => hB b (h2 k b hb).1
  | ptr P h1 h2 h3 ih =>
    refine .ptr P h1 h2 ?_
    rw [Mem.get_congr (hB _ h1).1]
    exact ih fun b hb => hB b (h2 b hb).1

/-- How the target may be used, as the other model says it. -/
def Target.acc (t : Target) : Acc :=
  if t.ro = true then .ro
  else match t.place with
    | .var _ => .rw
    | .tmp _ => .noaddr

theorem Target.acc_rw {t : Target} (h : t.acc = .rw) : t.ro = false ∧ ∃ l, t.place = .var l := by
  unfold Target.acc at h
  split at h
  · cases h
  · next h1 =>
    split at h
    · next l hl => exact ⟨by simpa using h1, l, hl⟩
    · cases h

theorem Target.acc_ro {t : Target} : t.acc = .ro ↔ t.ro = true := by
  unfold Target.acc
  constructor
  · intro h
    split at h
    · assumption
    · split at h <;> cases h
  · intro h; rw [if_pos h]

theorem Target.acc_part (t : Target) (i n : Nat) (ty : Ty) (ex : Bool) : (t.part i n ty ex).acc = t.acc.field ex := by
  unfold Target.acc Target.part Acc.field
  cases ex
  · simp
  · cases h : t.ro <;> simp
    cases t.place <;> rfl

theorem Target.acc_at (t : Target) (ty : Ty) (l : Spot) : (t.at ty l).acc = t.acc.behind := by
  unfold Target.acc Target.at Acc.behind
  cases h : t.ro
  · simp
    cases t.place <;> rfl
  · simp

theorem Target.now_part (t : Target) (i n : Nat) (ty : Ty) (ex : Bool) (m : Mem) :
    (t.part i n ty ex).now m = ((t.now m).parts n).getD i .zero := by
  unfold Target.now Target.part
  cases t.place with
  | var l => exact Mem.get_sub _ _ _ _
  | tmp v => rfl

theorem Target.now_at (t : Target) (ty : Ty) (l : Spot) (m : Mem) : (t.at ty l).now m = m.get l := rfl

theorem Target.read_now (t : Target) (s : MSt) : t.read s = (.ok (t.now s.mem), s) := by
  unfold Target.read Target.now
  cases t.place <;> rfl

/-! ### Steps -/

section
variable {tc : TCfg} {t : Target} {B : Nat → Prop} {m m' m'' : Mem} {x y : TVal}

theorem Changed.refl (t : Target) (B : Nat → Prop) (m : Mem) : Changed t B m m :=
  ⟨Nat.le_refl _, fun _ _ _ => rfl, fun _ _ _ _ => rfl, fun _ _ _ _ _ => rfl⟩

theorem Owned.later {B' : Nat → Prop} (h : Owned t B m) (hn : m.next ≤ m'.next)
    (hB : ∀ b, B' b → b < m'.next ∧ (B b ∨ m.next ≤ b)) : Owned t B' m' := by
  refine ⟨fun l hl => ?_, fun b hb => (hB b hb).1⟩
  obtain ⟨h1, h2, h3⟩ := h.here l hl
  refine ⟨h1, by omega, fun hb => ?_⟩
  rcases (hB _ hb).2 with h | h
  · exact h3 h
  · omega

theorem Changed.trans {B' : Nat → Prop} (h : Changed t B m m') (h' : Changed t B' m' m'')
    (hB : ∀ b, B' b → B b ∨ m.next ≤ b) : Changed t B m m'' := by
  have no : ∀ b, b < m.next → ¬ B b → ¬ B' b := by
    intro b hb hn hb'
    rcases hB b hb' with h | h
    · exact hn h
    · omega
  have hn := h.next
  refine ⟨Nat.le_trans hn h'.next, fun b hb hnb => ?_, fun b hb hnb hl => ?_, fun l z hl hz hs => ?_⟩
  · rw [h'.maps b (by omega) (no b hb hnb), h.maps b hb hnb]
  · rw [h'.vars b (by omega) (no b hb hnb) hl, h.vars b hb hnb hl]
  · rw [h'.side l z hl hz hs, h.side l z hl hz hs]

/-- Nothing has happened. -/
theorem Became.refl (ho : Owned t B m) (h : Depicts tc m t.ty B (t.now m) x) : Became tc t B m m x :=
  ⟨.refl .., fun _ _ => .inr rfl, B, fun b hb => ⟨ho.below b hb, .inl hb⟩, h⟩

/-- One step more. -/
theorem Became.trans {B' : Nat → Prop} (h : Changed t B m m') (hB : ∀ b, B' b → b < m'.next ∧ (B b ∨ m.next ≤ b))
    (hs : t.ty.isRef → (t.now m).isHandle → t.now m' = t.now m) (h' : Became tc t B' m' m'' y) : Became tc t B m m'' y := by
  have hn := h.next
  refine ⟨h.trans h'.changed fun b hb => (hB b hb).2, fun hr hh => ?_, ?_⟩
  · have e := hs hr hh
    rw [← e] at hh ⊢
    exact h'.stays hr hh
  · obtain ⟨B2, h1, h2⟩ := h'.holds
    refine ⟨B2, fun b hb => ⟨(h1 b hb).1, ?_⟩, h2⟩
    rcases (h1 b hb).2 with h | h
    · exact (hB b h).2
    · exact .inr (by omega)

/-- Memory in `B'` is the same after changes elsewhere. -/
theorem Changed.keeps {P : Nat → Prop} (h : Changed t B m m') (hP : ∀ b, P b → b < m.next ∧ ¬ B b ∧ ∀ l, t.place = .var l → b ≠ l.base) :
    ∀ b, P b → m'.vars b = m.vars b ∧ m'.maps b = m.maps b :=
  fun b hb => ⟨h.vars b (hP b hb).1 (hP b hb).2.1 (hP b hb).2.2, h.maps b (hP b hb).1 (hP b hb).2.1⟩

/-- Assignment. -/
theorem Became.put {l : Spot} {w : MVal} {B' : Nat → Prop} (ho : Owned t B m) (hl : t.place = .var l) (h : Changed t B m m')
    (hB : ∀ b, B' b → b < m'.next ∧ (B b ∨ m.next ≤ b)) (hd : Depicts tc m' t.ty B' w x)
    (hs : t.ty.isRef → (t.now m).isHandle → x = .zero ∨ w = t.now m) : Became tc t B m (m'.put l w) x := by
  obtain ⟨h1, h2, h3⟩ := ho.here l hl
  have hn := h.next
  have now : t.now (m'.put l w) = w := by
    unfold Target.now; rw [hl]; exact Mem.get_put _ h1 _
  have other : ∀ b, b ≠ l.base → (m'.put l w).vars b = m'.vars b := fun b hb => if_neg hb
  refine ⟨⟨hn, h.maps, fun b hb hnb hne => ?_, fun l' z hl' hz hsep => ?_⟩, fun hr hh => ?_, B', hB, ?_⟩
  · rw [other b (hne l hl)]; exact h.vars b hb hnb hne
  · rw [hl] at hl'; cases hl'
    rw [Mem.get_put_apart _ h1 hsep]; exact h.side l z hl hz hsep
  · rw [now]; exact hs hr hh
  · rw [now]
    refine hd.frame fun b hb => ⟨other b ?_, rfl⟩
    rintro rfl
    rcases (hB _ hb).2 with h | h
    · exact h3 h
    · omega

/-- A new variable. -/
theorem Changed.new (h : Changed t B m m') (ho : Owned t B m) (v : MVal) : Changed t B m (m'.new v) := by
  have hn := h.next
  have other : ∀ b, b < m.next → (m'.new v).vars b = m'.vars b := fun b hb => if_neg (by omega)
  refine ⟨by show m.next ≤ m'.next + 1; omega, h.maps, fun b hb hnb hne => ?_, fun l z hl hz hs => ?_⟩
  · rw [other b hb]; exact h.vars b hb hnb hne
  · rw [Mem.get_congr (other z.base (by rw [hz]; exact (ho.here l hl).2.1))]
    exact h.side l z hl hz hs

/-- A new map. -/
theorem Changed.newMap (h : Changed t B m m') : Changed t B m m'.newMap := by
  have hn := h.next
  refine ⟨by show m.next ≤ m'.next + 1; omega, fun b hb hnb => ?_, h.vars, h.side⟩
  show (if b = m'.next then _ else _) = _
  rw [if_neg (by omega)]; exact h.maps b hb hnb

end

/-! ### Parts of a struct or array -/

section
variable {tc : TCfg} {t : Target} {B : Nat → Prop} {m m' : Mem}

/-- `Depicts` for what consists of `n` parts with the types `T`. -/
def DepictsAll (tc : TCfg) (m : Mem) (n : Nat) (T : Nat → Ty → Prop) (P : Nat → Nat → Prop) (B : Nat → Prop) (w : MVal) (vs : List TVal) : Prop :=
  vs.length = n ∧ (∀ i b, P i b → B b) ∧ (∀ i j b, P i b → P j b → i = j) ∧
    ∀ i ty, i < n → T i ty → Depicts tc m ty (P i) ((w.parts n).getD i .zero) (vs.getD i .zero)

theorem Owned.part {P : Nat → Prop} {i n : Nat} {ty : Ty} {ex : Bool} (ho : Owned t B m) (hi : i < n) (hP : ∀ b, P b → B b) :
    Owned (t.part i n ty ex) P m := by
  refine ⟨fun l hl => ?_, fun b hb => ho.below b (hP b hb)⟩
  unfold Target.part at hl
  cases hp : t.place with
  | tmp v => rw [hp] at hl; cases hl
  | var l0 =>
    rw [hp] at hl
    cases hl
    obtain ⟨h1, h2, h3⟩ := ho.here l0 hp
    exact ⟨Spot.Ok.sub h1 hi, h2, fun hb => h3 (hP _ hb)⟩

theorem Changed.part {P : Nat → Prop} {i n : Nat} {ty : Ty} {ex : Bool} (hP : ∀ b, P b → B b)
    (h : Changed (t.part i n ty ex) P m m') : Changed t B m m' := by
  refine ⟨h.next, fun b hb hnb => h.maps b hb fun hh => hnb (hP b hh), fun b hb hnb hne => ?_, fun l z hl hz hs => ?_⟩
  · refine h.vars b hb (fun hh => hnb (hP b hh)) fun l hl => ?_
    unfold Target.part at hl
    cases hp : t.place with
    | tmp v => rw [hp] at hl; cases hl
    | var l0 =>
      rw [hp] at hl
      cases hl
      exact hne l0 hp
  · refine h.side (l.sub i n) z ?_ hz (hs.under (Under.sub l i n))
    unfold Target.part; rw [hl]

/-- After one part has changed. -/
theorem DepictsAll.set {n : Nat} {T : Nat → Ty → Prop} {P : Nat → Nat → Prop} {vs : List TVal} {i : Nat} {ty : Ty} {ex : Bool}
    {v : TVal} (ho : Owned t B m) (hT : ∀ ty', T i ty' → ty' = ty) (hi : i < n) (h : DepictsAll tc m n T P B (t.now m) vs)
    (hb : Became tc (t.part i n ty ex) (P i) m m' v) :
    ∃ B' P', (∀ b, B' b → b < m'.next ∧ (B b ∨ m.next ≤ b)) ∧ DepictsAll tc m' n T P' B' (t.now m') (vs.set i v) := by
  obtain ⟨h1, h2, h3, h4⟩ := h
  obtain ⟨Bi, b1, b2⟩ := hb.holds
  have hn := hb.changed.next
  refine ⟨fun b => (∃ j, j ≠ i ∧ P j b) ∨ Bi b, fun j b => (j ≠ i ∧ P j b) ∨ (j = i ∧ Bi b), ?_, by simpa using h1, ?_, ?_, ?_⟩
  · rintro b (⟨j, -, hj⟩ | hb')
    · have := ho.below b (h2 j b hj)
      exact ⟨by omega, .inl (h2 j b hj)⟩
    · refine ⟨(b1 b hb').1, (b1 b hb').2.imp_left (h2 i b)⟩
  · rintro j b (⟨hj, hb'⟩ | ⟨-, hb'⟩)
    · exact .inl ⟨j, hj, hb'⟩
    · exact .inr hb'
  · have cross : ∀ j b, j ≠ i → P j b → Bi b → False := by
      intro j b hj hp hbi
      rcases (b1 b hbi).2 with h | h
      · exact hj (h3 j i b hp h)
      · have := ho.below b (h2 j b hp); omega
    rintro j j' b (⟨hj, hb1⟩ | ⟨rfl, hb1⟩) (⟨hj', hb2⟩ | ⟨rfl, hb2⟩)
    · exact h3 j j' b hb1 hb2
    · exact (cross j b hj hb1 hb2).elim
    · exact (cross j' b hj' hb2 hb1).elim
    · rfl
  · intro j tj hj htj
    by_cases hji : j = i
    · subst hji
      have e := hT tj htj
      subst e
      have hg : (vs.set j v).getD j .zero = v := by
        rw [List.getD_eq_getElem?_getD, List.getElem?_set_self (by omega)]; rfl
      rw [hg, ← Target.now_part t j n tj ex]
      exact b2.mono fun b hb => .inr ⟨rfl, hb⟩
    · have hg : (vs.set i v).getD j .zero = vs.getD j .zero := by
        rw [List.getD_eq_getElem?_getD, List.getD_eq_getElem?_getD, List.getElem?_set_ne (Ne.symm hji)]
      have hw : ((t.now m').parts n).getD j .zero = ((t.now m).parts n).getD j .zero := by
        rw [← Target.now_part t j n ty ex, ← Target.now_part t j n ty ex]
        unfold Target.now Target.part
        cases hp : t.place with
        | tmp w => rfl
        | var l =>
          refine hb.changed.side (l.sub i n) (l.sub j n) ?_ rfl (Separate.sub hji)
          unfold Target.part; rw [hp]
      rw [hg, hw]
      refine ((h4 j tj hj htj).frame (hb.changed.keeps fun b hb' => ⟨ho.below b (h2 j b hb'), fun hi' => hji (h3 j i b hb' hi'), ?_⟩)).mono
        fun b hb' => .inl ⟨hji, hb'⟩
      intro l hl e
      unfold Target.part at hl
      cases hp : t.place with
      | tmp w => rw [hp] at hl; cases hl
      | var l0 =>
        rw [hp] at hl
        cases hl
        exact (ho.here l0 hp).2.2 (by rw [show l0.base = b from e.symm]; exact h2 j b hb')

/-! ### What is behind a slice or pointer -/

theorem Owned.behind {P : Nat → Prop} {l : Spot} {ty : Ty} (ho : Owned t B m) (hl : l.InRange) (hb : B l.base)
    (hP : ∀ b, P b → B b ∧ b ≠ l.base) : Owned (t.at ty l) P m :=
  ⟨fun l' hl' => by cases hl'; exact ⟨hl, ho.below _ hb, fun h => (hP _ h).2 rfl⟩, fun b h => ho.below b (hP b h).1⟩

theorem Changed.behind {P : Nat → Prop} {l : Spot} {ty : Ty} (ho : Owned t B m) (hb : B l.base) (hP : ∀ b, P b → B b)
    (h : Changed (t.at ty l) P m m') : Changed t B m m' ∧ t.now m' = t.now m := by
  have here : ∀ l', t.place = .var l' → m'.vars l'.base = m.vars l'.base := by
    intro l' hl'
    obtain ⟨h1, h2, h3⟩ := ho.here l' hl'
    refine h.vars _ h2 (fun hh => h3 (hP _ hh)) fun l0 hl0 => ?_
    cases hl0
    intro e
    exact h3 (e ▸ hb)
  refine ⟨⟨h.next, fun b hb' hnb => h.maps b hb' fun hh => hnb (hP b hh), fun b hb' hnb _ => ?_, fun l' z hl' hz _ => ?_⟩, ?_⟩
  · refine h.vars b hb' (fun hh => hnb (hP b hh)) fun l0 hl0 => ?_
    cases hl0
    rintro rfl
    exact hnb hb
  · exact Mem.get_congr (by rw [hz]; exact here l' hl')
  · unfold Target.now
    cases hp : t.place with
    | tmp w => rfl
    | var l' => exact Mem.get_congr (here l' hp)

end

end Sereal
