import Verif.Proof.PlacesRun
/-
Places: where the variables of the tracked items come from.
-/
namespace Sereal

section
variable {c : ViewCfg} {h : Heap} {buf : Bytes} {cd : Bool} {opn : List Nat} {part : Part} {i j : Nat} {ρ ρ' : Places}

theorem ObjName.lt {v : Bool} {cls : Bytes} {x : Nat} (hn : ObjName buf cd v i cls x) : i < x := by
  cases v with
  | false => exact Strish.lt hn |>.1
  | true => obtain ⟨_, _, h1, -⟩ := hn; exact h1.lt

/-- Parts have an end behind their beginning. -/
theorem Laid.le (k : Laid c h buf cd opn part i ρ j ρ') : i ≤ j := by
  induction k with
  | plain ht _ _ ih => have := ht.le; omega
  | tracked ht _ _ ih => have := ht.le; omega
  | leaf _ g _ => exact g.lt.1
  | array hv _ _ ih => have := hv.lt; omega
  | hash hv _ _ _ _ _ _ ih => have := hv.lt; omega
  | arrayref _ _ ih => exact ih
  | hashref _ _ _ _ _ _ ih => exact ih
  | itemsNil => exact Nat.le_refl _
  | pairsNil => exact Nat.le_refl _
  | itemsCons _ _ _ ih1 ih2 => omega
  | pairsCons hs _ _ ih1 ih2 => have := hs.lt.1; omega
  | refn _ _ ih => exact ih
  | refnT _ _ _ ih => exact ih
  | refnP _ _ _ _ ih => exact ih
  | refp _ hv => exact Nat.le_of_lt hv.lt
  | refpI _ hv => exact Nat.le_of_lt hv.lt
  | refpOpen hv => exact Nat.le_of_lt hv.lt
  | alias hv => exact Nat.le_of_lt hv.lt
  | aliasOpen hv => exact Nat.le_of_lt hv.lt
  | copy hv _ _ _ => exact Nat.le_of_lt hv.lt
  | weaken _ _ ih => exact ih
  | weakenP _ _ _ _ ih => exact ih
  | object _ hn _ _ ih => have := hn.lt; omega
  | objectP _ hn _ _ _ ih => have := hn.lt; omega
  | freeze hn _ _ _ _ _ _ ih => have := hn.lt; omega

/-- The variable of a tracked item holds that item: `o` is the position of a tag byte with the track flag, and the item
there is kept in `l`. -/
def ItemIn (c : ViewCfg) (h : Heap) (buf : Bytes) (o : Nat) (l : Loc) : Prop :=
  ∃ b cd opn ρ j ρ', buf[o]? = some b ∧ 128 ≤ b.toNat ∧ Laid c h buf cd opn (.item l) o ρ j ρ'

theorem TagAt.self {i k : Nat} {b : UInt8} (ht : TagAt buf i k b) : TagAt buf k k b ∧ buf[k]? = some b :=
  ⟨⟨Nat.le_refl _, fun _ _ _ => by omega, ht.2.2⟩, ht.2.2.1⟩

/-- Places are those of items kept. -/
theorem Laid.found (k : Laid c h buf cd opn part i ρ j ρ') :
    ∀ o l, ρ' o = some l → ρ o = some l ∨ ItemIn c h buf o l := by
  induction k with
  | plain _ _ _ ih => exact ih
  | @tracked cd opn i k b l ρ j ρ' ht hb kb ih =>
    intro o l' ho
    rcases ih o l' ho with h1 | h1
    · unfold Places.put at h1
      by_cases hok : o = k
      · rw [if_pos hok] at h1
        cases h1
        rw [hok]
        exact Or.inr ⟨b, cd, opn, ρ, j, ρ', ht.self.2, hb, .tracked ht.self.1 hb kb⟩
      · rw [if_neg hok] at h1
        exact Or.inl h1
    · exact Or.inr h1
  | array _ _ _ ih => exact ih
  | arrayref _ _ ih => exact ih
  | hash _ _ _ _ _ _ _ ih => exact ih
  | hashref _ _ _ _ _ _ ih => exact ih
  | itemsCons _ _ _ ih1 ih2 =>
    intro o l ho
    rcases ih2 o l ho with h1 | h1
    · exact ih1 o l h1
    · exact Or.inr h1
  | pairsCons _ _ _ ih1 ih2 =>
    intro o l ho
    rcases ih2 o l ho with h1 | h1
    · exact ih1 o l h1
    · exact Or.inr h1
  | refn _ _ ih => exact ih
  | refnT _ _ _ ih => exact ih
  | refnP _ _ _ _ ih => exact ih
  | copy _ _ _ ih => exact ih
  | weaken _ _ ih => exact ih
  | weakenP _ _ _ _ ih => exact ih
  | object _ _ _ _ ih => exact ih
  | objectP _ _ _ _ _ ih => exact ih
  | freeze _ _ _ _ _ _ _ ih => exact ih
  | _ => exact fun _ _ h => Or.inl h

/-- There is a COPY item between `i` and `j`. -/
def CopyIn (c : ViewCfg) (h : Heap) (buf : Bytes) (i j : Nat) : Prop :=
  ∃ opn tr l i2 ρ j2 ρ', i ≤ i2 ∧ j2 ≤ j ∧ Laid c h buf false opn (.body .copy tr l) i2 ρ j2 ρ'

theorem CopyIn.mono {i' j' : Nat} (h1 : CopyIn c h buf i j) (hi : i' ≤ i) (hj : j ≤ j') : CopyIn c h buf i' j' := by
  obtain ⟨opn, tr, l, i2, ρ, j2, ρ', h2, h3, h4⟩ := h1
  exact ⟨opn, tr, l, i2, ρ, j2, ρ', by omega, by omega, h4⟩

/-- Only COPY items move the places of earlier items. -/
theorem Laid.stays (k : Laid c h buf cd opn part i ρ j ρ') :
    (∀ o, o < i → ρ' o = ρ o) ∨ CopyIn c h buf i j := by
  induction k with
  | plain ht _ k ih =>
    have := ht.le
    exact ih.imp (fun h o ho => h o (by omega)) (fun h => h.mono (by omega) (Nat.le_refl _))
  | @tracked cd opn i k b l ρ j ρ' ht hb kb ih =>
    have := ht.le
    refine ih.imp (fun h o ho => ?_) (fun h => h.mono (by omega) (Nat.le_refl _))
    rw [h o (by omega)]
    unfold Places.put
    rw [if_neg (by omega)]
  | array hv _ _ ih =>
    have := hv.lt
    exact ih.imp (fun h o ho => h o (by omega)) (fun h => h.mono (by omega) (Nat.le_refl _))
  | hash hv _ _ _ _ _ _ ih =>
    have := hv.lt
    exact ih.imp (fun h o ho => h o (by omega)) (fun h => h.mono (by omega) (Nat.le_refl _))
  | arrayref _ _ ih => exact ih
  | hashref _ _ _ _ _ _ ih => exact ih
  | itemsCons _ k1 k2 ih1 ih2 =>
    have h1 := k1.le
    have h2 := k2.le
    rcases ih1 with ih1 | ih1
    · rcases ih2 with ih2 | ih2
      · exact Or.inl fun o ho => (ih2 o (by omega)).trans (ih1 o ho)
      · exact Or.inr (ih2.mono h1 (Nat.le_refl _))
    · exact Or.inr (ih1.mono (Nat.le_refl _) h2)
  | pairsCons hs k1 k2 ih1 ih2 =>
    have h0 := hs.lt.1
    have h1 := k1.le
    have h2 := k2.le
    rcases ih1 with ih1 | ih1
    · rcases ih2 with ih2 | ih2
      · exact Or.inl fun o ho => (ih2 o (by omega)).trans (ih1 o (by omega))
      · exact Or.inr (ih2.mono (by omega) (Nat.le_refl _))
    · exact Or.inr (ih1.mono (by omega) h2)
  | refn _ _ ih => exact ih
  | refnT _ _ _ ih => exact ih
  | refnP _ _ _ _ ih => exact ih
  | copy hv hlt k _ => exact Or.inr ⟨_, false, _, _, _, _, _, Nat.le_refl _, Nat.le_refl _, .copy hv hlt k⟩
  | weaken _ _ ih => exact ih
  | weakenP _ _ _ _ ih => exact ih
  | object _ hn _ _ ih =>
    have := hn.lt
    exact ih.imp (fun h o ho => h o (by omega)) (fun h => h.mono (by omega) (Nat.le_refl _))
  | objectP _ hn _ _ _ ih =>
    have := hn.lt
    exact ih.imp (fun h o ho => h o (by omega)) (fun h => h.mono (by omega) (Nat.le_refl _))
  | freeze hn _ _ _ _ _ _ ih =>
    have := hn.lt
    exact ih.imp (fun h o ho => h o (by omega)) (fun h => h.mono (by omega) (Nat.le_refl _))
  | _ => exact Or.inl fun _ _ => rfl

end

end Sereal
