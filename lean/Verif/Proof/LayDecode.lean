import Verif.Proof.LayLeaf
/-
Decoding what Marshal writes for values with shared and cyclic pointers to structs: the state of the decoder in
between, and how runs are put together.
-/
namespace Sereal

theorem leafBytes_ne {v : Val} {w : Bytes} (hw : leafBytes v = some w) : w ≠ [] := by
  rintro rfl
  cases v <;> simp [leafBytes, encodeFloat, encodeDouble, strItem, binItem, encodeInt] at hw
  all_goals (repeat' split at hw) <;> simp at hw

theorem StrctHead.lt {pc : Bool} {B name : Bytes} {n i p : Nat} (h : StrctHead pc B name n i p) : i + 2 < p ∧ p ≤ B.length := by
  obtain ⟨k, h1, h2, h3⟩ := h
  have h4 := h2.lt
  have h5 := h3.le_length (by omega)
  have h6 := h3.2
  simp only [List.length_append, List.length_cons] at h6
  omega

/-- How far a layout reaches. -/
def LJob.ends (B : Bytes) (i j : Nat) : LJob → Prop
  | .item _ => i < j ∧ j ≤ B.length
  | .elems vs => i + vs.length ≤ j ∧ (i ≤ B.length → j ≤ B.length)
  | .pairs kvs => i + 2 * kvs.length ≤ j ∧ (i ≤ B.length → j ≤ B.length)

theorem Lay.ends {c : ECfg} {inp : Heap} {B : Bytes} {job : LJob} {i j : Nat} {own own' : Own}
    (h : Lay c inp B job i own j own') : job.ends B i j := by
  have span : ∀ {w : Bytes} {i j : Nat}, w ≠ [] → Span B i w j → i < j ∧ j ≤ B.length := by
    intro w i j hw hs
    cases w with
    | nil => exact absurd rfl hw
    | cons b w =>
      have h1 := (List.getElem?_eq_some_iff.1 hs.head.1).1
      have h2 := hs.2
      simp only [List.length_cons] at h2
      exact ⟨by omega, hs.le_length (by omega)⟩
  have opt : ∀ {b : Bool} {x : UInt8} {w : Bytes}, ((if b then [typeREFN] else []) ++ x :: w) ≠ [] := by
    intro b x w; cases b <;> simp
  induction h with
  | leaf hw hs => exact span (leafBytes_ne hw) hs
  | ptr _ _ _ _ hh _ _ _ ih =>
    have := hh.lt
    simp only [LJob.ends] at ih ⊢
    have := ih.2 this.2
    omega
  | again hs => exact span (by simp) hs
  | strct hh _ _ _ ih =>
    have := hh.lt
    simp only [LJob.ends] at ih ⊢
    have := ih.2 this.2
    omega
  | slice _ hs _ ih =>
    have := span opt hs
    simp only [LJob.ends] at ih ⊢
    have := ih.2 this.2
    omega
  | map _ hs _ _ _ ih =>
    have := span opt hs
    simp only [LJob.ends] at ih ⊢
    have := ih.2 this.2
    omega
  | elemsNil => exact ⟨by simp, fun h => h⟩
  | elemsCons _ _ ih1 ih2 =>
    simp only [LJob.ends, List.length_cons] at ih1 ih2 ⊢
    exact ⟨by omega, fun _ => ih2.2 ih1.2⟩
  | pairsNil => exact ⟨by simp, fun h => h⟩
  | pairsCons hk _ _ ih1 ih2 =>
    have := hk.lt
    simp only [LJob.ends, List.length_cons] at ih1 ih2 ⊢
    exact ⟨by omega, fun _ => ih2.2 ih1.2⟩

section
variable {tc : TCfg} {inp : Heap} {A : Nat → Option Nat} {B : Bytes}

theorem Copied.stable {ρ ρ' : Nat → Option Nat} {m m' : Mem} {lo hi lo' hi' : Nat} {ty : Ty} {v : Val} {w : MVal}
    (h : Copied tc inp ρ m lo hi ty v w) (hg : ∀ l : Spot, lo ≤ l.base → l.base < hi → m'.get l = m.get l)
    (hm : ∀ x, lo ≤ x → x < hi → m'.maps x = m.maps x) (hρ : ∀ a b, ρ a = some b → ρ' a = some b)
    (h1 : lo' ≤ lo) (h2 : hi ≤ hi') : Copied tc inp ρ' m' lo' hi' ty v w := by
  induction h with
  | bool => exact .bool
  | nbool => exact .nbool
  | int => exact .int
  | nint => exact .nint
  | uint => exact .uint
  | f32 => exact .f32
  | nf32 => exact .nf32
  | f64 => exact .f64
  | nf64 => exact .nf64
  | str => exact .str
  | nstr => exact .nstr
  | bytes ha hb hc he =>
    exact .bytes (by omega) (by omega) hc fun i b hi => by rw [hg _ (by exact ha) (by exact hb)]; exact he i b hi
  | slice hs ha hb hc _ ih =>
    exact .slice hs (by omega) (by omega) hc fun i hi => by rw [hg _ (by exact ha) (by exact hb)]; exact ih i hi
  | arr _ ih => exact .arr ih
  | map hs ha hb hk _ ih =>
    refine .map hs (by omega) (by omega) (fun k => ?_) (fun k u w hu hw => ?_)
    · rw [hm _ ha hb]; exact hk k
    · rw [hm _ ha hb] at hw; exact ih k u w hu hw
  | strct _ ih => exact .strct ih
  | nilptr => exact .nilptr
  | ptr h => exact .ptr (hρ _ _ h)

/-- The decoder's state at position `i`: pointers were met at the positions that `own` tells, their structs are being copied to
the variables that `ρ` tells, and for those with a track flag there is an entry in the table. -/
structure DInv (A : Nat → Option Nat) (B : Bytes) (own : Own) (i : Nat) (s : MSt) (ρ : Nat → Option Nat) : Prop where
  depth : s.d.copyDepth = 0
  below : ∀ o a, own o = some a → o < i
  rlt : ∀ a b, ρ a = some b → b < s.mem.next
  inj : ∀ a a' b, ρ a = some b → ρ a' = some b → a = a'
  dom : ∀ a b, ρ a = some b → ∃ o, own o = some a
  trk : ∀ o a byte, own o = some a → B[o]? = some byte → 128 ≤ byte.toNat →
    ∃ x l b id, s.typed o = some (x, varAt (.ptr (.strct id)) l) ∧ s.d.tracked o = some (.cell x) ∧
      s.mem.get l = .ptr ⟨b, []⟩ ∧ ρ a = some b ∧ A a = some id
  tlt : ∀ o x t l, s.typed o = some (x, t) → t.place = .var l → l.base < s.mem.next

/-- No entry of the table overlaps with `l`. -/
def Clear (s : MSt) (l : Spot) : Prop := ∀ o x t z, s.typed o = some (x, t) → t.place = .var z → Separate z l

/-- What holds after a run from `s` to `s'` into the variables `Z` and the maps `M`. -/
structure MPost (tc : TCfg) (inp : Heap) (A : Nat → Option Nat) (B : Bytes) (own' : Own) (j : Nat) (Z : Spot → Prop)
    (M : Nat → Prop) (s s' : MSt) (ρ ρ' : Nat → Option Nat) : Prop where
  inv : DInv A B own' j s' ρ'
  mono : ∀ a b, ρ a = some b → ρ' a = some b
  next : s.mem.next ≤ s'.mem.next
  frame : ∀ z, z.base < s.mem.next → (∀ l, Z l → Separate z l) → s'.mem.get z = s.mem.get z
  maps : ∀ x, x < s.mem.next → ¬ M x → s'.mem.maps x = s.mem.maps x
  new : ∀ a b, ρ' a = some b → ρ a = some b ∨ (s.mem.next ≤ b ∧ ∃ id, A a = some id ∧
    Copied tc inp ρ' s'.mem s.mem.next s'.mem.next (.strct id) (inp.cellAt a) (s'.mem.get ⟨b, []⟩))
  typed : ∀ o x t l, s'.typed o = some (x, t) → t.place = .var l →
    s.typed o = some (x, t) ∨ (∃ z, Z z ∧ Under l z) ∨ s.mem.next ≤ l.base

theorem DInv.advance {own : Own} {i j : Nat} {s : MSt} {ρ : Nat → Option Nat} (h : DInv A B own i s ρ) (hij : i ≤ j) :
    DInv A B own j s ρ :=
  ⟨h.depth, fun o a ho => Nat.lt_of_lt_of_le (h.below o a ho) hij, h.rlt, h.inj, h.dom, h.trk, h.tlt⟩

theorem DInv.wrote {own : Own} {i : Nat} {s s' : MSt} {ρ : Nat → Option Nat} {l : Spot} (h : DInv A B own i s ρ)
    (hw : Wrote s.mem s'.mem l) (hc : Clear s l) (ht : s'.typed = s.typed) (hd : s.d.Eqv s'.d) : DInv A B own i s' ρ where
  depth := hd.copyDepth.trans h.depth
  below := h.below
  rlt a b hab := Nat.lt_of_lt_of_le (h.rlt a b hab) hw.next
  inj := h.inj
  dom := h.dom
  trk o a byte ho hb hf := by
    obtain ⟨x, z, b, id, h1, h2, h3, h4⟩ := h.trk o a byte ho hb hf
    refine ⟨x, z, b, id, by rw [ht]; exact h1, by rw [hd.tracked]; exact h2, ?_, h4⟩
    rw [hw.frame z (h.tlt o x _ z h1 rfl) (hc o x _ z h1 rfl)]
    exact h3
  tlt o x t z ho hp := Nat.lt_of_lt_of_le (h.tlt o x t z (by rw [← ht]; exact ho) hp) hw.next

/-- Only the decoder's own counters have changed. -/
theorem DInv.eqv {own : Own} {i : Nat} {s : MSt} {ρ : Nat → Option Nat} {d : DState} (h : DInv A B own i s ρ) (hd : s.d.Eqv d) :
    DInv A B own i { s with d := d } ρ where
  depth := hd.copyDepth.trans h.depth
  below := h.below
  rlt := h.rlt
  inj := h.inj
  dom := h.dom
  trk o a byte ho hb hf := by
    obtain ⟨x, z, b, id, h1, h2, h3⟩ := h.trk o a byte ho hb hf
    exact ⟨x, z, b, id, h1, by show d.tracked o = _; rw [hd.tracked]; exact h2, h3⟩
  tlt := h.tlt

theorem DInv.cd {own : Own} {i : Nat} {s : MSt} {ρ : Nat → Option Nat} (h : DInv A B own i s ρ) : s.d.cd = false := by
  unfold DState.cd; rw [h.depth]; rfl

theorem MPost.leaf {own : Own} {i j : Nat} {s s' : MSt} {ρ : Nat → Option Nat} {l : Spot} {M : Nat → Prop} (h : DInv A B own i s ρ)
    (hij : i ≤ j) (hw : Wrote s.mem s'.mem l) (hc : Clear s l) (ht : s'.typed = s.typed) (hd : s.d.Eqv s'.d) :
    MPost tc inp A B own j (· = l) M s s' ρ ρ where
  inv := (h.wrote hw hc ht hd).advance hij
  mono _ _ h := h
  next := hw.next
  frame z hz ha := hw.frame z hz (ha l rfl)
  maps x hx _ := hw.maps x hx
  new _ _ h := .inl h
  typed o x t z ho _ := .inl (by rw [← ht]; exact ho)

theorem MPost.refl {own : Own} {i : Nat} {s : MSt} {ρ : Nat → Option Nat} {Z : Spot → Prop} {M : Nat → Prop} (h : DInv A B own i s ρ) :
    MPost tc inp A B own i Z M s s ρ ρ :=
  ⟨h, fun _ _ h => h, Nat.le_refl _, fun _ _ _ => rfl, fun _ _ _ => rfl, fun _ _ h => .inl h, fun _ _ _ _ h _ => .inl h⟩

theorem MPost.stable {own : Own} {j lo : Nat} {s s' : MSt} {ρ ρ' : Nat → Option Nat} {Z : Spot → Prop} {M : Nat → Prop}
    (h : MPost tc inp A B own j Z M s s' ρ ρ') (hZ : ∀ z, Z z → z.base < lo ∨ s.mem.next ≤ z.base) (hM : ∀ m, M m → m < lo)
    {ty : Ty} {v : Val} {w : MVal} (hc : Copied tc inp ρ s.mem lo s.mem.next ty v w) :
    Copied tc inp ρ' s'.mem lo s'.mem.next ty v w :=
  hc.stable (fun l h1 h2 => h.frame l h2 fun z hz => .base (by rcases hZ z hz with h | h <;> omega))
    (fun x h1 h2 => h.maps x h2 fun hx => by have := hM x hx; omega) h.mono (Nat.le_refl _) h.next

theorem MPost.comp {own1 own2 : Own} {k j : Nat} {s s1 s2 : MSt} {ρ ρ1 ρ2 : Nat → Option Nat} {Z1 Z2 : Spot → Prop} {M : Nat → Prop}
    (h1 : MPost tc inp A B own1 k Z1 M s s1 ρ ρ1) (h2 : MPost tc inp A B own2 j Z2 M s1 s2 ρ1 ρ2)
    (hZ : ∀ z, Z2 z → z.base < s.mem.next ∨ s1.mem.next ≤ z.base) (hM : ∀ m, M m → m < s.mem.next) :
    MPost tc inp A B own2 j (fun z => Z1 z ∨ Z2 z) M s s2 ρ ρ2 where
  inv := h2.inv
  mono a b h := h2.mono a b (h1.mono a b h)
  next := Nat.le_trans h1.next h2.next
  frame z hz ha := by
    rw [h2.frame z (Nat.lt_of_lt_of_le hz h1.next) fun l hl => ha l (.inr hl)]
    exact h1.frame z hz fun l hl => ha l (.inl hl)
  maps x hx hm := by
    rw [h2.maps x (Nat.lt_of_lt_of_le hx h1.next) hm, h1.maps x hx hm]
  new a b hab := by
    have hn1 := h1.next
    have hn2 := h2.next
    rcases h2.new a b hab with h | ⟨h3, id, h4, h5⟩
    · rcases h1.new a b h with h | ⟨h3, id, h4, h5⟩
      · exact .inl h
      · refine .inr ⟨h3, id, h4, ?_⟩
        have hb := h1.inv.rlt a b h
        rw [h2.frame ⟨b, []⟩ hb fun l hl => .base (by
          show b ≠ l.base
          rcases hZ l hl with h | h <;> omega)]
        exact h2.stable hZ hM h5
    · exact .inr ⟨by omega, id, h4, h5.stable (fun _ _ _ => rfl) (fun _ _ _ => rfl) (fun _ _ h => h) hn1 (Nat.le_refl _)⟩
  typed o x t l ho hp := by
    rcases h2.typed o x t l ho hp with h | ⟨z, hz, hu⟩ | h
    · rcases h1.typed o x t l h hp with h | ⟨z, hz, hu⟩ | h
      · exact .inl h
      · exact .inr (.inl ⟨z, .inl hz, hu⟩)
      · exact .inr (.inr h)
    · exact .inr (.inl ⟨z, .inr hz, hu⟩)
    · exact .inr (.inr (Nat.le_trans h1.next h))

theorem MPost.weaken {own' : Own} {j : Nat} {s s' : MSt} {ρ ρ' : Nat → Option Nat} {Z Z' : Spot → Prop} {M M' : Nat → Prop}
    (h : MPost tc inp A B own' j Z M s s' ρ ρ') (hZ : ∀ z, Z z → (∃ z', Z' z' ∧ Under z z') ∨ s.mem.next ≤ z.base)
    (hM : ∀ m, M m → M' m ∨ s.mem.next ≤ m) : MPost tc inp A B own' j Z' M' s s' ρ ρ' where
  inv := h.inv
  mono := h.mono
  next := h.next
  frame z hz ha := h.frame z hz fun l hl => by
    rcases hZ l hl with ⟨z', h1, h2⟩ | h
    · exact (ha z' h1).under h2
    · exact .base (by omega)
  maps x hx hm := h.maps x hx fun hmx => by
    rcases hM x hmx with h | h
    · exact hm h
    · omega
  new := h.new
  typed o x t l ho hp := by
    rcases h.typed o x t l ho hp with h | ⟨z, hz, hu⟩ | h
    · exact .inl h
    · rcases hZ z hz with ⟨z', h1, h2⟩ | h
      · exact .inr (.inl ⟨z', h1, hu.trans h2⟩)
      · exact .inr (.inr (by rw [hu.1]; exact h))
    · exact .inr (.inr h)

/-- Something is written to `l` first. -/
theorem MPost.pre {own2 : Own} {j : Nat} {s s1 s2 : MSt} {ρ ρ1 ρ2 : Nat → Option Nat} {l : Spot} {Z : Spot → Prop} {M M' : Nat → Prop}
    (hw : Wrote s.mem s1.mem l) (h2 : MPost tc inp A B own2 j Z M s1 s2 ρ1 ρ2)
    (ht : ∀ o x t z, s1.typed o = some (x, t) → t.place = .var z → s.typed o = some (x, t) ∨ z = l)
    (hmono : ∀ a b, ρ a = some b → ρ1 a = some b)
    (hnew : ∀ a b, ρ1 a = some b → ρ a = some b ∨ (s.mem.next ≤ b ∧ ∃ id, A a = some id ∧
      Copied tc inp ρ2 s2.mem s.mem.next s2.mem.next (.strct id) (inp.cellAt a) (s2.mem.get ⟨b, []⟩)))
    (hM : ∀ m, M m → M' m ∨ s.mem.next ≤ m) :
    MPost tc inp A B own2 j (fun z => z = l ∨ Z z) M' s s2 ρ ρ2 where
  inv := h2.inv
  mono a b h := h2.mono a b (hmono a b h)
  next := Nat.le_trans hw.next h2.next
  frame z hz ha := by
    rw [h2.frame z (Nat.lt_of_lt_of_le hz hw.next) fun l hl => ha l (.inr hl)]
    exact hw.frame z hz (ha l (.inl rfl))
  maps x hx hm := by
    rw [h2.maps x (Nat.lt_of_lt_of_le hx hw.next) (fun h => by rcases hM x h with h | h; exact hm h; omega), hw.maps x hx]
  new a b hab := by
    rcases h2.new a b hab with h | ⟨h3, id, h4, h5⟩
    · exact hnew a b h
    · exact .inr ⟨Nat.le_trans hw.next h3, id, h4, h5.stable (fun _ _ _ => rfl) (fun _ _ _ => rfl) (fun _ _ h => h) hw.next (Nat.le_refl _)⟩
  typed o x t z ho hp := by
    rcases h2.typed o x t z ho hp with h | ⟨z', hz, hu⟩ | h
    · rcases ht o x t z h hp with h | rfl
      · exact .inl h
      · exact .inr (.inl ⟨z, .inl rfl, .refl _⟩)
    · exact .inr (.inl ⟨z', .inr hz, hu⟩)
    · exact .inr (.inr (Nat.le_trans hw.next h))

theorem Clear.after {own' : Own} {j : Nat} {s s' : MSt} {ρ ρ' : Nat → Option Nat} {Z : Spot → Prop} {M : Nat → Prop} {l : Spot}
    (hc : Clear s l) (h : MPost tc inp A B own' j Z M s s' ρ ρ') (hb : l.base < s.mem.next) (hZ : ∀ z, Z z → Separate l z) : Clear s' l := by
  intro o x t z ho hp
  rcases h.typed o x t z ho hp with h | ⟨z', hz, hu⟩ | h
  · exact hc o x t z h hp
  · exact ((hZ z' hz).under hu).symm
  · exact .base (by omega)

theorem Clear.sub {s : MSt} {l : Spot} (h : Clear s l) (i n : Nat) : Clear s (l.sub i n) :=
  fun o x t z ho hp => (h o x t z ho hp).under (.sub _ _ _)

theorem DInv.clear {own : Own} {i : Nat} {s : MSt} {ρ : Nat → Option Nat} (h : DInv A B own i s ρ) {l : Spot}
    (hl : s.mem.next ≤ l.base) : Clear s l :=
  fun o x t z ho hp => .base (by have := h.tlt o x t z ho hp; omega)

end
end Sereal
