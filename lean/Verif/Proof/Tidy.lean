import Verif.Spec.Tidy
import Verif.Proof.Unshared
/-
Values in which every pointer is met once are written as one tree, up to the order of pairs.
-/
namespace Sereal

/-- Equal up to the order of pairs (with distinct keys). -/
inductive TreeEq : Tree → Tree → Prop
  | refl {t} : TreeEq t t
  | arr {ts ts' : List Tree} : ts.length = ts'.length →
      (∀ (i : Nat) t t', ts[i]? = some t → ts'[i]? = some t' → TreeEq t t') → TreeEq (.arr ts) (.arr ts')
  | map {kts kts' : List (Bytes × Tree)} : (kts.map Prod.fst).Nodup →
      (kts.map Prod.fst).Perm (kts'.map Prod.fst) →
      (∀ k t t', (k, t) ∈ kts → (k, t') ∈ kts' → TreeEq t t') → TreeEq (.map kts) (.map kts')
  | ref {t t'} : TreeEq t t' → TreeEq (.ref t) (.ref t')
  | weak {t t'} : TreeEq t t' → TreeEq (.weak t) (.weak t')
  | obj {cls t t'} : TreeEq t t' → TreeEq (.obj cls t) (.obj cls t')

theorem TreeEq.refWrap {t t' : Tree} (b : Bool) (h : TreeEq t t') : TreeEq (refWrap b t) (refWrap b t') := by
  unfold Sereal.refWrap; split
  · exact .ref h
  · exact h

theorem nodup_length_le {α : Type} [DecidableEq α] {xs ys : List α} (hn : xs.Nodup) (hs : ∀ x ∈ xs, x ∈ ys) :
    xs.length ≤ ys.length := by
  induction xs generalizing ys with
  | nil => simp
  | cons x xs ih =>
    rw [List.nodup_cons] at hn
    have h1 : x ∈ ys := hs x (by simp)
    have h2 := ih (ys := ys.erase x) hn.2 (fun y hy => by
      refine (List.mem_erase_of_ne ?_).2 (hs y (List.mem_cons_of_mem _ hy))
      rintro rfl
      exact hn.1 hy)
    rw [List.length_erase_of_mem h1] at h2
    have := List.length_pos_of_mem h1
    simp
    omega

theorem Tidy.tree {n : Nat} {inp : Heap} {v : Val} {cfg : ECfg} {c : ViewCfg} (hp : Tidy cfg c n inp v) {rn : Bool}
    {t : Tree} (hw : Solo cfg inp rn v t) : Supported c t ∧ Fits n t := by
  induction hp generalizing rn t with
  | nil => cases hw; exact ⟨.undef, .undef⟩
  | bool => cases hw; exact ⟨.bool, .bool⟩
  | int => cases hw; exact ⟨.int, .int⟩
  | uint => cases hw; exact ⟨.int, .int⟩
  | f32 => cases hw; exact ⟨.f32, .f32⟩
  | f64 => cases hw; exact ⟨.f64, .f64⟩
  | str h => cases hw; exact ⟨.str, .str h⟩
  | bin h => cases hw; exact ⟨.bin, .bin h⟩
  | jnum h =>
    cases hw with
    | jnumInt => exact ⟨.int, .int⟩
    | jnumFloat => exact ⟨.f64, .f64⟩
    | jnumText => exact ⟨.str, .str h⟩
  | nbool => cases hw; exact ⟨.bool, .bool⟩
  | nint =>
    cases hw with
    | nint => exact ⟨.int, .int⟩
    | nintWrap => exact ⟨.int, .int⟩
  | nf32 => cases hw; exact ⟨.f32, .f32⟩
  | nf64 => cases hw; exact ⟨.f64, .f64⟩
  | nstr h => cases hw; exact ⟨.str, .str h⟩
  | slice hl _ ih =>
    cases hw with
    | @slice _ _ ts hW =>
      have : ∀ t' ∈ ts, Supported c t' ∧ Fits n t' := by
        intro t' ht'
        obtain ⟨i, hi, rfl⟩ := List.getElem_of_mem ht'
        exact ih i hi (hW i _ (by simp))
      exact ⟨.refWrap (.arr (fun t' ht' => (this t' ht').1)), .refWrap (.arr hl (fun t' ht' => (this t' ht').2))⟩
  | rslice hl _ ih =>
    cases hw with
    | @rslice _ _ ts hW =>
      have : ∀ t' ∈ ts, Supported c t' ∧ Fits n t' := by
        intro t' ht'
        obtain ⟨i, hi, rfl⟩ := List.getElem_of_mem ht'
        exact ih i hi (hW i _ (by simp))
      exact ⟨.refWrap (.arr (fun t' ht' => (this t' ht').1)), .refWrap (.arr hl (fun t' ht' => (this t' ht').2))⟩
  | smap hl _ hkl _ ih =>
    cases hw with
    | @smap _ _ kts hperm hW =>
      have : ∀ (k : Bytes) t', (k, t') ∈ kts → k.length ≤ n ∧ Supported c t' ∧ Fits n t' := by
        intro k t' ht'
        obtain ⟨v, hv⟩ := mem_of_keys hperm ht'
        exact ⟨hkl k v hv, ih k v hv (hW k t' v ht' hv)⟩
      refine ⟨.refWrap (.map (fun k t' ht' => (this k t' ht').2.1)), .refWrap (.map ?_
        (fun k t' ht' => (this k t' ht').1) (fun k t' ht' => (this k t' ht').2.2))⟩
      have := hperm.length_eq
      simp at this
      omega
  | rmap hl _ hkl _ ih =>
    cases hw with
    | @rmap _ _ kts hperm hW =>
      have : ∀ (k : Bytes) t', (k, t') ∈ kts → k.length ≤ n ∧ Supported c t' ∧ Fits n t' := by
        intro k t' ht'
        obtain ⟨v, hv⟩ := mem_of_keys hperm ht'
        exact ⟨hkl k v hv, ih k v hv (hW k t' v ht' hv)⟩
      refine ⟨.refWrap (.map (fun k t' ht' => (this k t' ht').2.1)), .refWrap (.map ?_
        (fun k t' ht' => (this k t' ht').1) (fun k t' ht' => (this k t' ht').2.2))⟩
      have := hperm.length_eq
      simp at this
      omega
  | @strct name a hnm hl hkl _ ih =>
    cases hw with
    | @strct _ _ _ kts hnd hkeys hW =>
      have : ∀ (k : Bytes) t', (k, t') ∈ kts → k.length ≤ n ∧ Supported c t' ∧ Fits n t' := by
        intro k t' ht'
        have h1 := (hkeys k).1 (List.mem_map.2 ⟨(k, t'), ht', rfl⟩)
        obtain ⟨v, hv⟩ := Option.isSome_iff_exists.1 ((lastLookup_isSome k _).2 h1)
        exact ⟨hkl k v hv, ih k v hv (hW k t' v ht' hv)⟩
      have hlen : kts.length ≤ n := by
        have h1 := nodup_length_le hnd (fun k hk => (hkeys k).1 hk)
        simp at h1
        omega
      exact ⟨.obj (.refWrap (.map (fun k t' ht' => (this k t' ht').2.1))), .obj hnm (.refWrap (.map hlen
        (fun k t' ht' => (this k t' ht').1) (fun k t' ht' => (this k t' ht').2.2)))⟩
  | undef =>
    cases hw with
    | undef => exact ⟨.undef, .undef⟩
    | cundef => exact ⟨.cundef, .cundef⟩
  | obj hc _ ih =>
    cases hw with
    | obj hW => exact ⟨.obj (ih hW).1, .obj hc (ih hW).2⟩
  | weak _ ih =>
    cases hw with
    | weak hW => exact ⟨.weak (ih hW).1, .weak (ih hW).2⟩
  | regexp h1 h2 => cases hw; exact ⟨.regexp, .regexp h1 h2⟩
  | @frozen cls d hn h1 h2 =>
    cases hw with
    | @frozen _ _ _ kts hperm =>
      have : ∀ (k : Bytes) t', (k, t') ∈ kts → k.length ≤ n ∧ Supported c t' ∧ Fits n t' := by
        intro k t' ht'
        have h3 := hperm.mem_iff.1 ht'
        simp only [List.mem_cons, Prod.mk.injEq, List.not_mem_nil, or_false] at h3
        rcases h3 with ⟨rfl, rfl⟩ | ⟨rfl, rfl⟩
        · exact ⟨by simp [nameClass]; omega, .str, .str h1⟩
        · exact ⟨by simp [nameData]; omega, .bin, .bin h2⟩
      have hlen : kts.length ≤ n := by rw [hperm.length_eq]; simp; omega
      exact ⟨.obj (.refWrap (.map (fun k t' ht' => (this k t' ht').2.1))), .obj (by simp [namePerlFreeze]; omega)
        (.refWrap (.map hlen (fun k t' ht' => (this k t' ht').1) (fun k t' ht' => (this k t' ht').2.2)))⟩
  | marshaler hf hpc h1 hc hd hu =>
    cases hw with
    | marshaler =>
      exact ⟨.frz hpc .bin .bin hu, .frz hc (.ref (.arr (by simpa using h1) (fun t ht => by
        rw [List.mem_singleton.1 ht]; exact .bin hd)))⟩
    | marshalerOff hf' => rw [hf] at hf'; cases hf'
  | marshalerOff hf _ ih =>
    cases hw with
    | marshaler hf' => rw [hf] at hf'; cases hf'
    | marshalerOff _ hW => exact ih hW
  | nilptr => cases hw; exact ⟨.ref .undef, .ref .undef⟩
  | perlPtr hps _ ih =>
    cases hw with
    | ptrPerl _ hW => exact ih hW
    | ptr hb => rw [hb rfl] at hps; cases hps
  | ptr hb _ ih =>
    cases hw with
    | ptrPerl hps _ => rw [hb rfl] at hps; cases hps
    | ptr _ hW => exact ⟨.ref (ih hW).1, .ref (ih hW).2⟩

theorem intText_unique {s : Bytes} {z z' : Int} (h : IntText s z) (h' : IntText s z') : z = z' := by
  have nd : ∀ {d : UInt8} {ds : Bytes}, (∀ x ∈ d :: ds, (48 : UInt8) ≤ x ∧ x ≤ 57) → d = 43 ∨ d = 45 → False := by
    intro d ds h1 h2
    have := (h1 d (by simp)).1
    rcases h2 with rfl | rfl <;> revert this <;> decide
  cases h with
  | plain h1 h2 =>
    cases h' with
    | plain => rfl
    | plus => exact (nd h2 (.inl rfl)).elim
    | minus => exact (nd h2 (.inr rfl)).elim
  | plus h1 h2 =>
    cases h' with
    | plain _ h2' => exact (nd h2' (.inl rfl)).elim
    | plus => rfl
  | minus h1 h2 =>
    cases h' with
    | plain _ h2' => exact (nd h2' (.inr rfl)).elim
    | minus => rfl

/-- Two encoders that agree on PerlCompat, DisableFREEZE and float parsing. -/
structure ECfg.Alike (c c' : ECfg) : Prop where
  perl : c.perlCompat = c'.perlCompat
  freeze : c.disableFreeze = c'.disableFreeze
  float : c.parseFloat = c'.parseFloat

theorem Tidy.alike {n : Nat} {inp : Heap} {v : Val} {cfg cfg' : ECfg} {c : ViewCfg} (hp : Tidy cfg c n inp v)
    (ha : cfg.Alike cfg') : Tidy cfg' c n inp v := by
  induction hp with
  | marshaler h1 h2 h3 h4 h5 h6 => exact .marshaler (ha.freeze ▸ h1) h2 h3 h4 h5 h6
  | marshalerOff h1 _ ih => exact .marshalerOff (ha.freeze ▸ h1) ih
  | nil => exact .nil
  | bool => exact .bool
  | int => exact .int
  | uint => exact .uint
  | f32 => exact .f32
  | f64 => exact .f64
  | str h => exact .str h
  | bin h => exact .bin h
  | jnum h => exact .jnum h
  | nbool => exact .nbool
  | nint => exact .nint
  | nf32 => exact .nf32
  | nf64 => exact .nf64
  | nstr h => exact .nstr h
  | slice h _ ih => exact .slice h ih
  | rslice h _ ih => exact .rslice h ih
  | smap h1 h2 h3 _ ih => exact .smap h1 h2 h3 ih
  | rmap h1 h2 h3 _ ih => exact .rmap h1 h2 h3 ih
  | strct h1 h2 h3 _ ih => exact .strct h1 h2 h3 ih
  | undef => exact .undef
  | obj h _ ih => exact .obj h ih
  | weak _ ih => exact .weak ih
  | regexp h1 h2 => exact .regexp h1 h2
  | frozen h1 h2 h3 => exact .frozen h1 h2 h3
  | nilptr => exact .nilptr
  | perlPtr h _ ih => exact .perlPtr h ih
  | ptr h _ ih => exact .ptr h ih

theorem Tidy.unique {n : Nat} {inp : Heap} {v : Val} {cfg cfg' : ECfg} {c : ViewCfg} (hp : Tidy cfg c n inp v)
    (ha : cfg.Alike cfg') {rn : Bool} {t t' : Tree} (hw : Solo cfg inp rn v t) (hw' : Solo cfg' inp rn v t') :
    TreeEq t t' := by
  induction hp generalizing rn t t' with
  | nil => cases hw; cases hw'; exact .refl
  | bool => cases hw; cases hw'; exact .refl
  | int => cases hw; cases hw'; exact .refl
  | uint => cases hw; cases hw'; exact .refl
  | f32 => cases hw; cases hw'; exact .refl
  | f64 => cases hw; cases hw'; exact .refl
  | str h => cases hw; cases hw'; exact .refl
  | bin h => cases hw; cases hw'; exact .refl
  | jnum h =>
    cases hw with
    | jnumInt h1 h2 h3 =>
      cases hw' with
      | jnumInt h1' => rw [intText_unique h1 h1']; exact .refl
      | jnumFloat h1' => exact absurd h1 (h1' _)
      | jnumText h1' => have := h1' _ h1; omega
    | jnumFloat h1 h2 h3 =>
      cases hw' with
      | jnumInt h1' => exact absurd h1' (h1 _)
      | jnumFloat _ _ h3' => rw [ha.float, h3'] at h3; cases h3; exact .refl
      | jnumText _ h4 =>
        rcases h4 with ⟨z, hz⟩ | h4 | h4
        · exact absurd hz (h1 z)
        · exact absurd h4 h2
        · rw [ha.float, h4] at h3; cases h3
    | jnumText h1 h4 =>
      cases hw' with
      | jnumInt h1' => have := h1 _ h1'; omega
      | jnumFloat h1' h2' h3' =>
        rcases h4 with ⟨z, hz⟩ | h4 | h4
        · exact absurd hz (h1' z)
        · exact absurd h4 h2'
        · rw [ha.float, h3'] at h4; cases h4
      | jnumText => exact .refl
  | nbool => cases hw; cases hw'; exact .refl
  | nint =>
    cases hw with
    | nint h1 =>
      cases hw' with
      | nint => exact .refl
      | nintWrap h2 h3 =>
        rcases h1 with h1 | h1
        · exact absurd h1 h2
        · exact absurd h3 (Int64.not_lt.2 h1)
    | nintWrap h2 h3 =>
      cases hw' with
      | nint h1 =>
        rcases h1 with h1 | h1
        · exact absurd h1 h2
        · exact absurd h3 (Int64.not_lt.2 h1)
      | nintWrap => exact .refl
  | nf32 => cases hw; cases hw'; exact .refl
  | nf64 => cases hw; cases hw'; exact .refl
  | nstr h => cases hw; cases hw'; exact .refl
  | @slice p len hl _ ih =>
    generalize hv : Val.slice p len = v0 at hw'
    cases hw with
    | @slice _ _ ts hW =>
      cases hw' <;> try (cases hv; done)
      rename_i p' ts' hW'
      injection hv with h1 h2
      subst h1
      rw [ha.perl]
      refine .refWrap _ (.arr h2 (fun i t t' h3 h4 => ?_))
      have := (List.getElem?_eq_some_iff.1 h3).1
      exact ih i this (hW i t h3) (hW' i t' h4)
  | @rslice p len hl _ ih =>
    generalize hv : Val.rslice p len = v0 at hw'
    cases hw with
    | @rslice _ _ ts hW =>
      cases hw' <;> try (cases hv; done)
      rename_i p' ts' hW'
      injection hv with h1 h2
      subst h1
      rw [ha.perl]
      refine .refWrap _ (.arr h2 (fun i t t' h3 h4 => ?_))
      have := (List.getElem?_eq_some_iff.1 h3).1
      exact ih i this (hW i t h3) (hW' i t' h4)
  | smap hl hnd _ _ ih =>
    cases hw with
    | @smap _ _ kts hperm hW =>
      cases hw' with
      | @smap _ _ kts' hperm' hW' =>
        rw [ha.perl]
        refine .refWrap _ (.map (hperm.nodup_iff.2 hnd) (hperm.trans hperm'.symm) (fun k t t' h1 h2 => ?_))
        obtain ⟨v, hv⟩ := mem_of_keys hperm h1
        exact ih k v hv (hW k t v h1 hv) (hW' k t' v h2 hv)
  | rmap hl hnd _ _ ih =>
    cases hw with
    | @rmap _ _ kts hperm hW =>
      cases hw' with
      | @rmap _ _ kts' hperm' hW' =>
        rw [ha.perl]
        refine .refWrap _ (.map (hperm.nodup_iff.2 hnd) (hperm.trans hperm'.symm) (fun k t t' h1 h2 => ?_))
        obtain ⟨v, hv⟩ := mem_of_keys hperm h1
        exact ih k v hv (hW k t v h1 hv) (hW' k t' v h2 hv)
  | @strct name a hnm hl hkl _ ih =>
    cases hw with
    | @strct _ _ _ kts hnd hkeys hW =>
      cases hw' with
      | @strct _ _ _ kts' hnd' hkeys' hW' =>
        rw [ha.perl]
        refine .obj (.refWrap _ (.map hnd ((List.perm_ext_iff_of_nodup hnd hnd').2
          (fun k => (hkeys k).trans (hkeys' k).symm)) (fun k t t' h1 h2 => ?_)))
        have h3 := (hkeys k).1 (List.mem_map.2 ⟨(k, t), h1, rfl⟩)
        obtain ⟨v, hv⟩ := Option.isSome_iff_exists.1 ((lastLookup_isSome k _).2 h3)
        exact ih k v hv (hW k t v h1 hv) (hW' k t' v h2 hv)
  | undef =>
    cases hw with
    | undef => cases hw'; exact .refl
    | cundef => cases hw'; exact .refl
  | obj hc _ ih =>
    cases hw with
    | obj hW => cases hw' with | obj hW' => exact .obj (ih hW hW')
  | weak _ ih =>
    cases hw with
    | weak hW => cases hw' with | weak hW' => exact .weak (ih hW hW')
  | regexp h1 h2 => cases hw; cases hw'; exact .refl
  | @frozen cls d hn h1 h2 =>
    cases hw with
    | @frozen _ _ _ kts hperm =>
      cases hw' with
      | @frozen _ _ _ kts' hperm' =>
        rw [ha.perl]
        have hk : (kts.map Prod.fst).Nodup := (hperm.map Prod.fst).nodup_iff.2 (by
          simp [nameClass, nameData])
        refine .obj (.refWrap _ (.map hk ((hperm.trans hperm'.symm).map _) (fun k t t' h1 h2 => ?_)))
        have h3 := hperm.mem_iff.1 h1
        have h4 := hperm'.mem_iff.1 h2
        simp only [List.mem_cons, Prod.mk.injEq, List.not_mem_nil, or_false] at h3 h4
        have hne : nameClass ≠ nameData := by decide
        rcases h3 with ⟨rfl, rfl⟩ | ⟨rfl, rfl⟩ <;> rcases h4 with ⟨h5, rfl⟩ | ⟨h5, rfl⟩
        · exact .refl
        · exact absurd h5 hne
        · exact absurd h5.symm hne
        · exact .refl
  | marshaler hf hpc h1 hc hd hu =>
    cases hw with
    | marshaler =>
      cases hw' with
      | marshaler => exact .refl
      | marshalerOff hf' => rw [← ha.freeze, hf] at hf'; cases hf'
    | marshalerOff hf' => rw [hf] at hf'; cases hf'
  | marshalerOff hf _ ih =>
    cases hw with
    | marshaler hf' => rw [hf] at hf'; cases hf'
    | marshalerOff _ hW =>
      cases hw' with
      | marshaler hf' => rw [← ha.freeze, hf] at hf'; cases hf'
      | marshalerOff _ hW' => exact ih hW hW'
  | nilptr => cases hw; cases hw'; exact .refl
  | perlPtr hps _ ih =>
    cases hw with
    | ptrPerl _ hW =>
      cases hw' with
      | ptrPerl _ hW' => exact ih hW hW'
      | ptr hb => rw [hb rfl] at hps; cases hps
    | ptr hb => rw [hb rfl] at hps; cases hps
  | ptr hb _ ih =>
    cases hw with
    | ptrPerl hps _ => rw [hb rfl] at hps; cases hps
    | ptr _ hW =>
      cases hw' with
      | ptrPerl hps _ => rw [hb rfl] at hps; cases hps
      | ptr _ hW' => exact .ref (ih hW hW')

/-! ### Unshared -/

theorem PtrKey.congr {c c' : ECfg} {h : Heap} (hf : c.disableFreeze = c'.disableFreeze) (hd : c.dataPtr = c'.dataPtr)
    {v : Val} {κ : Addr} (hk : PtrKey c h v κ) : PtrKey c' h v κ := by
  have hda : ∀ a, dataAddr c h a = dataAddr c' h a := by
    intro a
    unfold dataAddr
    rw [hd]
  induction hk with
  | here ho hk =>
    refine .here ho ?_
    unfold IsKey at hk ⊢
    rw [← hda]
    exact hk
  | deep hl _ ih =>
    refine .deep ?_ ih
    rcases hl with hl | hl | hl
    · exact .inl hl
    · refine .inr (.inl ?_)
      cases hl with
      | obj => exact .obj
      | weak => exact .weak
      | under h => exact .under (hf ▸ h)
    · exact .inr (.inr hl)

theorem Unshared.congr {c c' : ECfg} {h : Heap} (hf : c.disableFreeze = c'.disableFreeze) (hd : c.dataPtr = c'.dataPtr)
    {v : Val} (hu : Unshared c h v) : Unshared c' h v := by
  have hl : ∀ {v w}, Unlinked c h v w → Unlinked c' h v w := fun hx κ h1 h2 =>
    hx κ (h1.congr hf.symm hd.symm) (h2.congr hf.symm hd.symm)
  induction hu with
  | plain h => exact .plain h
  | nilptr => exact .nilptr
  | frozen => exact .frozen
  | freeze h => exact .freeze (hf ▸ h)
  | slice _ h ih => exact .slice ih (fun i j h1 h2 => hl (h i j h1 h2))
  | rslice _ h ih => exact .rslice ih (fun i j h1 h2 => hl (h i j h1 h2))
  | smap hn _ h ih => exact .smap hn ih (fun k k' v v' h1 h2 h3 => hl (h k k' v v' h1 h2 h3))
  | rmap hn _ h ih => exact .rmap hn ih (fun k k' v v' h1 h2 h3 => hl (h k k' v v' h1 h2 h3))
  | strct _ h ih => exact .strct ih (fun k k' v v' h1 h2 h3 => hl (h k k' v v' h1 h2 h3))
  | same hs _ ih =>
    refine .same ?_ ih
    cases hs with
    | obj => exact .obj
    | weak => exact .weak
    | under h => exact .under (hf ▸ h)
  | perl h _ ih => exact .perl h ih
  | ptr h _ hk ih => exact .ptr h ih (fun hx => hk (hx.congr hf.symm hd.symm))

theorem NoPointers.congr {c c' : ECfg} {h : Heap} (hf : c.disableFreeze = c'.disableFreeze) {v : Val}
    (hn : NoPointers c h v) : NoPointers c' h v := by
  obtain ⟨S, h1, h2⟩ := hn
  refine ⟨S, h1, fun w hw => ⟨(h2 w hw).1, fun u hu => (h2 w hw).2 u ?_⟩⟩
  rcases hu with hl | hl | hl
  · exact .inl hl
  · refine .inr (.inl ?_)
    cases hl with
    | obj => exact .obj
    | weak => exact .weak
    | under h => exact .under (hf ▸ h)
  · exact .inr (.inr hl)

/-- Plain data contains no pointers. -/
theorem Plain.noPointers {n : Nat} {h : Heap} {v : Val} (hp : Plain n h v) (c : ECfg) : NoPointers c h v := by
  refine ⟨Plain n h, hp, fun w hw => ⟨fun a ho => ?_, fun u hu => ?_⟩⟩
  · rcases ho with rfl | ⟨rfl, _⟩ <;> cases hw
  · rcases hu with hu | hu | ⟨a, ho, _⟩
    · cases hu with
      | elem hi => cases hw with | slice _ h => exact h _ hi
      | relem hi => cases hw
      | entry hk => cases hw with | smap _ _ _ h => exact h _ _ hk
      | rentry hk => cases hw
      | field => cases hw
      | cls => cases hw
      | data => cases hw
      | perl => cases hw
    · cases hu <;> cases hw
    · rcases ho with rfl | ⟨rfl, _⟩ <;> cases hw

theorem tidy_ordPtr {h : Heap} {b : Bool} {a : Addr} (hb : b = false → isPerlStruct (h.cellAt a) = false) :
    OrdPtr h (.ptr b a) a := by
  refine ordPtr_of ?_
  cases b with
  | true => simp
  | false => simp [hb rfl]

/-- Without pointers none is met twice. -/
theorem Tidy.unshared {n : Nat} {inp : Heap} {v : Val} {cfg : ECfg} {c : ViewCfg} (hp : Tidy cfg c n inp v)
    (hn : NoPointers cfg inp v) : Unshared cfg inp v := by
  induction hp with
  | nil | bool | int | uint | f32 | f64 | str | bin | jnum | nbool | nint | nf32 | nf64 | nstr | undef | regexp =>
    exact .plain trivial
  | slice _ _ ih =>
    exact .slice (fun i hi => ih i hi (hn.sub (.inl (.elem hi))))
      (fun i j h1 h2 => (hn.sub (.inl (.elem (Nat.lt_trans h1 h2)))).unlinked)
  | rslice _ _ ih =>
    exact .rslice (fun i hi => ih i hi (hn.sub (.inl (.relem hi))))
      (fun i j h1 h2 => (hn.sub (.inl (.relem (Nat.lt_trans h1 h2)))).unlinked)
  | smap _ h2 _ _ ih =>
    exact .smap h2 (fun k v h => ih k v h (hn.sub (.inl (.entry h))))
      (fun k k' v v' _ h _ => (hn.sub (.inl (.entry h))).unlinked)
  | rmap _ h2 _ _ ih =>
    exact .rmap h2 (fun k v h => ih k v h (hn.sub (.inl (.rentry h))))
      (fun k k' v v' _ h _ => (hn.sub (.inl (.rentry h))).unlinked)
  | strct _ _ _ _ ih =>
    refine .strct (fun k f h => ih k f.val ?_ (hn.sub (.inl (.field h))))
      (fun k k' f f' _ h _ => (hn.sub (.inl (.field h))).unlinked)
    rw [← structTags_lookup, writesField_iff.2 h]; rfl
  | obj _ _ ih => exact .same .obj (ih (hn.sub (.inr (.inl .obj))))
  | weak _ ih => exact .same .weak (ih (hn.sub (.inr (.inl .weak))))
  | frozen => exact .frozen
  | marshaler h => exact .freeze h
  | marshalerOff h _ ih => exact .same (.under h) (ih (hn.sub (.inr (.inl (.under h)))))
  | nilptr => exact .nilptr
  | perlPtr h _ ih => exact .perl (perl_iff.1 h) (ih (hn.sub (.inl (.perl (perl_iff.1 h)))))
  | ptr h => exact absurd (tidy_ordPtr h) (hn.not_ptr _)

end Sereal
