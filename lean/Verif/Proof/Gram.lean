import Verif.Proof.Ext
/-
The grammar is unambiguous, stable under appending bytes, and monotone in the dialect.
-/
namespace Sereal

theorem Lit.unique {d : Dialect} {buf : Bytes} {i j j' : Nat} {s s' : Bytes}
    (h : Lit d buf i s j) (h' : Lit d buf i s' j') : s = s' ∧ j = j' := by
  cases h with
  | long ht hc hv hn hs hl =>
    cases h' with
    | long ht' hc' hv' hn' hs' hl' =>
      obtain ⟨rfl, rfl⟩ := ht.unique ht'
      obtain ⟨rfl, rfl⟩ := hv.unique hv'
      exact hs.unique hs' (hl.trans hl'.symm)
    | short ht' hc' hs' hl' =>
      obtain ⟨rfl, rfl⟩ := ht.unique ht'
      rw [hc'] at hc
      rcases hc with hc | hc <;> cases hc
  | short ht hc hs hl =>
    cases h' with
    | long ht' hc' hv' hn' hs' hl' =>
      obtain ⟨rfl, rfl⟩ := ht.unique ht'
      rw [hc] at hc'
      rcases hc' with hc' | hc' <;> cases hc'
    | short ht' hc' hs' hl' =>
      obtain ⟨rfl, rfl⟩ := ht.unique ht'
      rw [hc] at hc'
      cases hc'
      exact hs.unique hs' (hl.trans hl'.symm)

theorem Lit.not_copy {d : Dialect} {buf : Bytes} {i k j : Nat} {b : UInt8} {s : Bytes}
    (h : Lit d buf i s j) (ht : TagAt buf i k b) (hc : classify (b.toNat % 128) = .copy) : False := by
  cases h with
  | long ht' hc' =>
    obtain ⟨rfl, rfl⟩ := ht.unique ht'
    rw [hc] at hc'
    rcases hc' with hc' | hc' <;> cases hc'
  | short ht' hc' =>
    obtain ⟨rfl, rfl⟩ := ht.unique ht'
    rw [hc] at hc'
    cases hc'

theorem Strish.unique {d : Dialect} {buf : Bytes} {cd : Bool} {i j j' : Nat} {s s' : Bytes}
    (h : Strish d buf cd i s j) (h' : Strish d buf cd i s' j') : s = s' ∧ j = j' := by
  cases h with
  | lit h =>
    cases h' with
    | lit h' => exact h.unique h'
    | copy _ ht hc => exact (h.not_copy ht hc).elim
  | copy _ ht hc hv ho hl =>
    cases h' with
    | lit h' => exact (h'.not_copy ht hc).elim
    | copy _ ht' hc' hv' ho' hl' =>
      obtain ⟨rfl, rfl⟩ := ht.unique ht'
      obtain ⟨rfl, rfl⟩ := hv.unique hv'
      exact ⟨(hl.unique hl').1, rfl⟩

/-- At most one reading. -/
theorem G.unique {d : Dialect} {buf : Bytes} {cd : Bool} {job : Job} {i : Nat} {T : Seen}
    {out out' : Out} {j j' : Nat} {T' T'' : Seen} (h : G d buf cd job i T out j T')
    (h' : G d buf cd job i T out' j' T'') : out = out' ∧ j = j' ∧ T' = T'' := by
  induction h generalizing out' j' T'' with
  | plain ht hb _ ih =>
    cases h' with
    | plain ht' hb' g' =>
      obtain ⟨rfl, rfl⟩ := ht.unique ht'
      exact ih g'
    | tracked ht' hb' g' =>
      obtain ⟨rfl, rfl⟩ := ht.unique ht'
      omega
  | tracked ht hb _ ih =>
    cases h' with
    | plain ht' hb' g' =>
      obtain ⟨rfl, rfl⟩ := ht.unique ht'
      omega
    | tracked ht' hb' g' =>
      obtain ⟨rfl, rfl⟩ := ht.unique ht'
      obtain ⟨h1, rfl, rfl⟩ := ih g'
      cases h1
      exact ⟨rfl, rfl, rfl⟩
  | int => cases h'; exact ⟨rfl, rfl, rfl⟩
  | varint hv =>
    cases h' with | varint hv' => obtain ⟨rfl, rfl⟩ := hv.unique hv'; exact ⟨rfl, rfl, rfl⟩
  | zigzag hv hz =>
    cases h' with
    | zigzag hv' hz' =>
      obtain ⟨rfl, rfl⟩ := hv.unique hv'
      rw [hz] at hz'
      cases hz'
      exact ⟨rfl, rfl, rfl⟩
  | float hs hl =>
    cases h' with
    | float hs' hl' => obtain ⟨rfl, rfl⟩ := hs.unique hs' (hl.trans hl'.symm); exact ⟨rfl, rfl, rfl⟩
  | double hs hl =>
    cases h' with
    | double hs' hl' => obtain ⟨rfl, rfl⟩ := hs.unique hs' (hl.trans hl'.symm); exact ⟨rfl, rfl, rfl⟩
  | true_ => cases h'; exact ⟨rfl, rfl, rfl⟩
  | false_ => cases h'; exact ⟨rfl, rfl, rfl⟩
  | undef => cases h'; exact ⟨rfl, rfl, rfl⟩
  | cundef => cases h'; exact ⟨rfl, rfl, rfl⟩
  | binary hv hn hs hl =>
    cases h' with
    | binary hv' hn' hs' hl' =>
      obtain ⟨rfl, rfl⟩ := hv.unique hv'
      obtain ⟨rfl, rfl⟩ := hs.unique hs' (hl.trans hl'.symm); exact ⟨rfl, rfl, rfl⟩
  | strUtf8 hv hn hs hl =>
    cases h' with
    | strUtf8 hv' hn' hs' hl' =>
      obtain ⟨rfl, rfl⟩ := hv.unique hv'
      obtain ⟨rfl, rfl⟩ := hs.unique hs' (hl.trans hl'.symm); exact ⟨rfl, rfl, rfl⟩
  | short hs hl =>
    cases h' with
    | short hs' hl' => obtain ⟨rfl, rfl⟩ := hs.unique hs' (hl.trans hl'.symm); exact ⟨rfl, rfl, rfl⟩
  | hash hv hn _ ih =>
    cases h' with
    | hash hv' hn' g' =>
      obtain ⟨rfl, rfl⟩ := hv.unique hv'
      obtain ⟨h1, rfl, rfl⟩ := ih g'
      cases h1
      exact ⟨rfl, rfl, rfl⟩
  | hashref _ ih =>
    cases h' with
    | hashref g' => obtain ⟨h1, rfl, rfl⟩ := ih g'; cases h1; exact ⟨rfl, rfl, rfl⟩
  | array hv hn _ ih =>
    cases h' with
    | array hv' hn' g' =>
      obtain ⟨rfl, rfl⟩ := hv.unique hv'
      obtain ⟨h1, rfl, rfl⟩ := ih g'
      cases h1
      exact ⟨rfl, rfl, rfl⟩
  | arrayref _ ih =>
    cases h' with
    | arrayref g' => obtain ⟨h1, rfl, rfl⟩ := ih g'; cases h1; exact ⟨rfl, rfl, rfl⟩
  | refn _ ih =>
    cases h' with
    | refn g' => obtain ⟨h1, rfl, rfl⟩ := ih g'; cases h1; exact ⟨rfl, rfl, rfl⟩
  | refp hv ho hT =>
    cases h' with
    | refp hv' ho' hT' =>
      obtain ⟨rfl, rfl⟩ := hv.unique hv'
      rw [hT] at hT'; cases hT'; exact ⟨rfl, rfl, rfl⟩
    | refpOpen hv' ho' hT' =>
      obtain ⟨rfl, rfl⟩ := hv.unique hv'
      rw [hT] at hT'; cases hT'
  | refpOpen hv ho hT =>
    cases h' with
    | refp hv' ho' hT' =>
      obtain ⟨rfl, rfl⟩ := hv.unique hv'
      rw [hT] at hT'; cases hT'
    | refpOpen hv' ho' hT' =>
      obtain ⟨rfl, rfl⟩ := hv.unique hv'
      exact ⟨rfl, rfl, rfl⟩
  | alias hv ho hT =>
    cases h' with
    | alias hv' ho' hT' =>
      obtain ⟨rfl, rfl⟩ := hv.unique hv'
      rw [hT] at hT'; cases hT'; exact ⟨rfl, rfl, rfl⟩
    | aliasOpen hv' ho' hT' =>
      obtain ⟨rfl, rfl⟩ := hv.unique hv'
      rw [hT] at hT'; cases hT'
  | aliasOpen hv ho hT =>
    cases h' with
    | alias hv' ho' hT' =>
      obtain ⟨rfl, rfl⟩ := hv.unique hv'
      rw [hT] at hT'; cases hT'
    | aliasOpen hv' ho' hT' =>
      obtain ⟨rfl, rfl⟩ := hv.unique hv'
      exact ⟨rfl, rfl, rfl⟩
  | copy _ hv ho _ ih =>
    cases h' with
    | copy _ hv' ho' g' =>
      obtain ⟨rfl, rfl⟩ := hv.unique hv'
      obtain ⟨h1, rfl, rfl⟩ := ih g'; cases h1; exact ⟨rfl, rfl, rfl⟩
  | weaken _ ih =>
    cases h' with
    | weaken g' => obtain ⟨h1, rfl, rfl⟩ := ih g'; cases h1; exact ⟨rfl, rfl, rfl⟩
  | regexp hp hm =>
    cases h' with
    | regexp hp' hm' =>
      obtain ⟨rfl, rfl⟩ := hp.unique hp'
      obtain ⟨rfl, rfl⟩ := hm.unique hm'
      exact ⟨rfl, rfl, rfl⟩
  | object hc _ ih =>
    cases h' with
    | object hc' g' =>
      obtain ⟨rfl, rfl⟩ := hc.unique hc'
      obtain ⟨h1, rfl, rfl⟩ := ih g'; cases h1; exact ⟨rfl, rfl, rfl⟩
  | objectv hv ho hc _ ih =>
    cases h' with
    | objectv hv' ho' hc' g' =>
      obtain ⟨rfl, rfl⟩ := hv.unique hv'
      obtain ⟨rfl, rfl⟩ := hc.unique hc'
      obtain ⟨h1, rfl, rfl⟩ := ih g'; cases h1; exact ⟨rfl, rfl, rfl⟩
  | freeze hc _ _ ih =>
    cases h' with
    | freeze hc' _ g' =>
      obtain ⟨rfl, rfl⟩ := hc.unique hc'
      obtain ⟨h1, rfl, rfl⟩ := ih g'; cases h1; exact ⟨rfl, rfl, rfl⟩
  | freezev hv ho hc _ _ ih =>
    cases h' with
    | freezev hv' ho' hc' _ g' =>
      obtain ⟨rfl, rfl⟩ := hv.unique hv'
      obtain ⟨rfl, rfl⟩ := hc.unique hc'
      obtain ⟨h1, rfl, rfl⟩ := ih g'; cases h1; exact ⟨rfl, rfl, rfl⟩
  | itemsNil => cases h'; exact ⟨rfl, rfl, rfl⟩
  | itemsCons _ _ ih1 ih2 =>
    cases h' with
    | itemsCons g1 g2 =>
      obtain ⟨h1, rfl, rfl⟩ := ih1 g1
      cases h1
      obtain ⟨h1, rfl, rfl⟩ := ih2 g2
      cases h1
      exact ⟨rfl, rfl, rfl⟩
  | pairsNil => cases h'; exact ⟨rfl, rfl, rfl⟩
  | pairsCons hk _ _ ih1 ih2 =>
    cases h' with
    | pairsCons hk' g1 g2 =>
      obtain ⟨rfl, rfl⟩ := hk.unique hk'
      obtain ⟨h1, rfl, rfl⟩ := ih1 g1
      cases h1
      obtain ⟨h1, rfl, rfl⟩ := ih2 g2
      cases h1
      exact ⟨rfl, rfl, rfl⟩

/-! ### Larger buffers, larger dialects -/

/-- What one dialect reads, the other reads too. -/
structure Dialect.Le (d d' : Dialect) : Prop where
  vint : ∀ v n, d.vint v = some n → d'.vint v = some n
  zig : ∀ n z, n < 2 ^ 64 → d.zig n = some z → d'.zig n = some z
  range : ∀ v n, d.vint v = some n → n < 2 ^ 64
  key : d.keyCopyInCopy = true → d'.keyCopyInCopy = true
  strict : d'.strictCopy = true → d.strictCopy = true

theorem coreDialect_le_go : coreDialect.Le goDialect := by
  refine ⟨?_, ?_, ?_, fun h => h, fun h => h⟩
  · intro v n h
    dsimp only [coreDialect, goDialect] at *
    split at h
    · rename_i hlt; cases h; rw [Nat.mod_eq_of_lt hlt]
    · cases h
  · intro n z _ h
    dsimp only [coreDialect, goDialect] at *
    split at h
    · cases h
    · exact h
  · intro v n h
    dsimp only [coreDialect] at *
    split at h
    · cases h; assumption
    · cases h

theorem coreDialect_le_spec : coreDialect.Le specDialect := by
  refine ⟨fun v n h => h, ?_, coreDialect_le_go.range, fun _ => rfl, fun h => h⟩
  intro n z _ h
  dsimp only [coreDialect, specDialect] at *
  split at h
  · cases h
  · rename_i hn; rw [if_neg hn]; exact h

theorem Lit.lt {d : Dialect} {buf : Bytes} {i j : Nat} {s : Bytes} (h : Lit d buf i s j) :
    i < j ∧ j ≤ buf.length := by
  cases h with
  | long ht hc hv hn hs hl =>
    have := ht.le; have := hv.lt; have := hs.le; have := hs.le_length hv.le_length; omega
  | short ht hc hs hl =>
    have := ht.le; have := ht.lt; have := hs.le; have := hs.le_length (by omega); omega

theorem Strish.lt {d : Dialect} {buf : Bytes} {cd : Bool} {i j : Nat} {s : Bytes}
    (h : Strish d buf cd i s j) : i < j ∧ j ≤ buf.length := by
  cases h with
  | lit h => exact h.lt
  | copy hk ht hc hv ho hl => have := ht.le; have := hv.lt; have := hv.le_length; omega

theorem NotPad.append {buf : Bytes} {o : Nat} (h : NotPad buf o) (e : Bytes) (ho : o < buf.length) :
    NotPad (buf ++ e) o := by
  intro p hp
  rw [List.getElem?_append_left ho] at hp
  exact h p hp

section
variable {d d' : Dialect} (hd : d.Le d') {buf : Bytes} (e : Bytes)
include hd

theorem Vint.ext {i n j : Nat} (h : Vint d buf i n j) : Vint d' (buf ++ e) i n j := by
  obtain ⟨v, h1, h2, h3, h4⟩ := h.append e
  exact ⟨v, h1, h2, h3, hd.vint v n h4⟩

theorem Lit.ext {i j : Nat} {s : Bytes} (h : Lit d buf i s j) : Lit d' (buf ++ e) i s j := by
  cases h with
  | long ht hc hv hn hs hl => exact .long (ht.append e) hc (hv.ext hd e) hn (hs.append e) hl
  | short ht hc hs hl => exact .short (ht.append e) hc (hs.append e) hl

theorem Strish.ext {cd : Bool} {i j : Nat} {s : Bytes} (h : Strish d buf cd i s j) :
    Strish d' (buf ++ e) cd i s j := by
  cases h with
  | lit h => exact .lit (h.ext hd e)
  | copy hk ht hc hv ho hl hj =>
    exact .copy (hk.imp_right hd.key) (ht.append e) hc (hv.ext hd e) ho (hl.ext hd e)
      (fun h => ⟨(hj (hd.strict h)).1, (hj (hd.strict h)).2.append e (Nat.lt_of_lt_of_le hl.lt.1 hl.lt.2)⟩)

theorem G.ext {cd : Bool} {job : Job} {i : Nat} {T : Seen} {out : Out} {j : Nat} {T' : Seen}
    (h : G d buf cd job i T out j T') : G d' (buf ++ e) cd job i T out j T' := by
  induction h with
  | plain ht hb _ ih => exact .plain (ht.append e) hb ih
  | tracked ht hb _ ih => exact .tracked (ht.append e) hb ih
  | int => exact .int
  | varint hv => exact .varint (hv.ext hd e)
  | zigzag hv hz =>
    refine .zigzag (hv.ext hd e) (hd.zig _ _ ?_ hz)
    obtain ⟨v, -, -, -, h4⟩ := hv
    exact hd.range _ _ h4
  | float hs hl => exact .float (hs.append e) hl
  | double hs hl => exact .double (hs.append e) hl
  | true_ => exact .true_
  | false_ => exact .false_
  | undef => exact .undef
  | cundef => exact .cundef
  | binary hv hn hs hl => exact .binary (hv.ext hd e) hn (hs.append e) hl
  | strUtf8 hv hn hs hl => exact .strUtf8 (hv.ext hd e) hn (hs.append e) hl
  | short hs hl => exact .short (hs.append e) hl
  | hash hv hn _ ih => exact .hash (hv.ext hd e) hn ih
  | hashref _ ih => exact .hashref ih
  | array hv hn _ ih => exact .array (hv.ext hd e) hn ih
  | arrayref _ ih => exact .arrayref ih
  | refn _ ih => exact .refn ih
  | refp hv ho hT => exact .refp (hv.ext hd e) ho hT
  | refpOpen hv ho hT => exact .refpOpen (hv.ext hd e) ho hT
  | alias hv ho hT => exact .alias (hv.ext hd e) ho hT
  | aliasOpen hv ho hT => exact .aliasOpen (hv.ext hd e) ho hT
  | copy hc hv ho _ ih =>
    refine .copy ?_ (hv.ext hd e) ho ih
    cases h : d'.strictCopy with
    | false => rfl
    | true => rw [hd.strict h] at hc; cases hc
  | weaken _ ih => exact .weaken ih
  | regexp hp hm => exact .regexp (hp.ext hd e) (hm.ext hd e)
  | object hc _ ih => exact .object (hc.ext hd e) ih
  | objectv hv ho hc _ ih =>
    exact .objectv (hv.ext hd e)
      ⟨ho.1, fun h => (ho.2 (hd.strict h)).append e (Nat.lt_of_lt_of_le hc.lt.1 hc.lt.2)⟩ (hc.ext hd e) ih
  | freeze hc hs _ ih => exact .freeze (hc.ext hd e) (hs.append e) ih
  | freezev hv ho hc hs _ ih =>
    exact .freezev (hv.ext hd e)
      ⟨ho.1, fun h => (ho.2 (hd.strict h)).append e (Nat.lt_of_lt_of_le hc.lt.1 hc.lt.2)⟩ (hc.ext hd e) (hs.append e) ih
  | itemsNil => exact .itemsNil
  | itemsCons _ _ ih1 ih2 => exact .itemsCons ih1 ih2
  | pairsNil => exact .pairsNil
  | pairsCons hk _ _ ih1 ih2 => exact .pairsCons (hk.ext hd e) ih1 ih2

end

theorem Dialect.Le.refl_go : goDialect.Le goDialect := by
  refine ⟨fun _ _ h => h, fun _ _ _ h => h, ?_, fun h => h, fun h => h⟩
  intro v n h
  simp only [goDialect, Option.some.injEq] at h
  omega

theorem G.append {buf : Bytes} (e : Bytes) {cd : Bool} {job : Job} {i : Nat} {T : Seen} {out : Out}
    {j : Nat} {T' : Seen} (h : G goDialect buf cd job i T out j T') :
    G goDialect (buf ++ e) cd job i T out j T' := h.ext Dialect.Le.refl_go e

theorem G.core_go {buf : Bytes} {cd : Bool} {job : Job} {i : Nat} {T : Seen} {out : Out}
    {j : Nat} {T' : Seen} (h : G coreDialect buf cd job i T out j T') :
    G goDialect buf cd job i T out j T' := by
  have := h.ext coreDialect_le_go []
  rwa [List.append_nil] at this

theorem G.core_spec {buf : Bytes} {cd : Bool} {job : Job} {i : Nat} {T : Seen} {out : Out}
    {j : Nat} {T' : Seen} (h : G coreDialect buf cd job i T out j T') :
    G specDialect buf cd job i T out j T' := by
  have := h.ext coreDialect_le_spec []
  rwa [List.append_nil] at this

theorem wrtDialect_le_core : wrtDialect.Le coreDialect :=
  ⟨fun _ _ h => h, fun _ _ _ h => h, coreDialect_le_go.range, fun h => h, fun h => by cases h⟩

theorem G.wrt_core {buf : Bytes} {cd : Bool} {job : Job} {i : Nat} {T : Seen} {out : Out}
    {j : Nat} {T' : Seen} (h : G wrtDialect buf cd job i T out j T') :
    G coreDialect buf cd job i T out j T' := by
  have := h.ext wrtDialect_le_core []
  rwa [List.append_nil] at this

/-! ### Positions -/

/-- Bytes a job needs. -/
def Job.need : Job → Nat
  | .item => 1
  | .body _ => 0
  | .items n => n
  | .pairs n => 2 * n

theorem G.lt {d : Dialect} {buf : Bytes} {cd : Bool} {job : Job} {i : Nat} {T : Seen}
    {out : Out} {j : Nat} {T' : Seen} (h : G d buf cd job i T out j T') :
    i + job.need ≤ j ∧ (i ≤ buf.length → j ≤ buf.length) := by
  induction h with
  | plain ht hb _ ih =>
    have := ht.le; have := ht.lt; simp only [Job.need] at *
    exact ⟨by omega, fun _ => ih.2 (by omega)⟩
  | tracked ht hb _ ih =>
    have := ht.le; have := ht.lt; simp only [Job.need] at *
    exact ⟨by omega, fun _ => ih.2 (by omega)⟩
  | int => exact ⟨Nat.le_refl _, fun h => h⟩
  | varint hv => exact ⟨Nat.le_of_lt hv.lt, fun _ => hv.le_length⟩
  | zigzag hv hz => exact ⟨Nat.le_of_lt hv.lt, fun _ => hv.le_length⟩
  | float hs hl => exact ⟨hs.le, hs.le_length⟩
  | double hs hl => exact ⟨hs.le, hs.le_length⟩
  | true_ => exact ⟨Nat.le_refl _, fun h => h⟩
  | false_ => exact ⟨Nat.le_refl _, fun h => h⟩
  | undef => exact ⟨Nat.le_refl _, fun h => h⟩
  | cundef => exact ⟨Nat.le_refl _, fun h => h⟩
  | binary hv hn hs hl => exact ⟨Nat.le_trans (Nat.le_of_lt hv.lt) hs.le, fun _ => hs.le_length hv.le_length⟩
  | strUtf8 hv hn hs hl => exact ⟨Nat.le_trans (Nat.le_of_lt hv.lt) hs.le, fun _ => hs.le_length hv.le_length⟩
  | short hs hl => exact ⟨hs.le, hs.le_length⟩
  | hash hv hn _ ih =>
    have := hv.lt; simp only [Job.need] at *
    exact ⟨by omega, fun _ => ih.2 hv.le_length⟩
  | hashref _ ih => simp only [Job.need] at *; exact ⟨by omega, ih.2⟩
  | array hv hn _ ih =>
    have := hv.lt; simp only [Job.need] at *
    exact ⟨by omega, fun _ => ih.2 hv.le_length⟩
  | arrayref _ ih => simp only [Job.need] at *; exact ⟨by omega, ih.2⟩
  | refn _ ih => simp only [Job.need] at *; exact ⟨by omega, ih.2⟩
  | refp hv ho hT => exact ⟨Nat.le_of_lt hv.lt, fun _ => hv.le_length⟩
  | refpOpen hv ho hT => exact ⟨Nat.le_of_lt hv.lt, fun _ => hv.le_length⟩
  | alias hv ho hT => exact ⟨Nat.le_of_lt hv.lt, fun _ => hv.le_length⟩
  | aliasOpen hv ho hT => exact ⟨Nat.le_of_lt hv.lt, fun _ => hv.le_length⟩
  | copy _ hv ho _ ih => exact ⟨Nat.le_of_lt hv.lt, fun _ => hv.le_length⟩
  | weaken _ ih => simp only [Job.need] at *; exact ⟨by omega, ih.2⟩
  | regexp hp hm => have := hp.lt; have := hm.lt; simp only [Job.need]; omega
  | object hc _ ih => have := hc.lt; simp only [Job.need] at *; exact ⟨by omega, fun _ => ih.2 (by omega)⟩
  | objectv hv ho hc _ ih =>
    have := hv.lt; have := hv.le_length; simp only [Job.need] at *; exact ⟨by omega, fun _ => ih.2 (by omega)⟩
  | freeze hc _ _ ih => have := hc.lt; simp only [Job.need] at *; exact ⟨by omega, fun _ => ih.2 (by omega)⟩
  | freezev hv ho hc _ _ ih =>
    have := hv.lt; have := hv.le_length; simp only [Job.need] at *; exact ⟨by omega, fun _ => ih.2 (by omega)⟩
  | itemsNil => exact ⟨Nat.le_refl _, fun h => h⟩
  | itemsCons _ _ ih1 ih2 => simp only [Job.need] at *; exact ⟨by omega, fun h => ih2.2 (ih1.2 h)⟩
  | pairsNil => exact ⟨Nat.le_refl _, fun h => h⟩
  | pairsCons hk _ _ ih1 ih2 =>
    have := hk.lt; simp only [Job.need] at *; exact ⟨by omega, fun h => ih2.2 (ih1.2 (by omega))⟩

/-- The shape of the output. -/
theorem G.tree {d : Dialect} {buf : Bytes} {cd : Bool} {job : Job} {i : Nat} {T : Seen}
    {out : Out} {j : Nat} {T' : Seen} (h : G d buf cd job i T out j T')
    (hj : job = .item ∨ ∃ c, job = .body c) : ∃ t, out = .tree t := by
  cases h <;> first | exact ⟨_, rfl⟩ | (rcases hj with hj | ⟨c, hj⟩ <;> cases hj)

end Sereal
