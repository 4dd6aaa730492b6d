import Verif.Spec.Arrives
import Verif.Proof.Iso
/-
Values in which every pointer is met once arrive.
-/
namespace Sereal

variable {c : ECfg} {w : ViewCfg} {h h' : Heap}

theorem Shows.undef_inv {v' : Val} (hs : Shows w h' v' .undef) : IsUndef w h' v' false := by
  cases hs with
  | undef hc => exact .inl ⟨hc, rfl⟩
  | undefP hc hm => exact .inr ⟨hc, ⟨_, rfl, hm⟩, fun h => by cases h⟩

theorem Shows.cundef_inv {v' : Val} (hs : Shows w h' v' .cundef) : IsUndef w h' v' true := by
  cases hs with
  | cundef hc => exact .inl ⟨hc, rfl⟩
  | cundefP hc hm => exact .inr ⟨hc, ⟨_, rfl, hm⟩, fun _ => rfl⟩

theorem Shows.ref_inv {v' : Val} {t : Tree} (hs : Shows w h' v' (.ref t)) :
    ∃ u, Held w.perlCompat h' v' u ∧ Shows w h' u t := by
  cases hs with
  | ref hc hs => exact ⟨_, .inl ⟨hc, rfl⟩, hs⟩
  | refP hc hm hs => exact ⟨_, .inr ⟨hc, _, _, rfl, hm⟩, hs⟩

theorem Shows.wrap_inv {b : Bool} {v' : Val} {t : Tree} (hs : Shows w h' v' (Sereal.refWrap b t)) :
    ∃ u, Held (b && w.perlCompat) h' v' u ∧ Shows w h' u t := by
  cases b with
  | false => exact ⟨v', .inl ⟨rfl, rfl⟩, hs⟩
  | true =>
    obtain ⟨u, h1, h2⟩ := Shows.ref_inv (t := t) hs
    exact ⟨u, h1, h2⟩

theorem Shows.obj_inv {cls : Bytes} {v' : Val} {t : Tree} (hs : Shows w h' v' (.obj cls t)) :
    ∃ u, Boxed w.perlCompat h' v' u (.obj cls u) ∧ Shows w h' u t := by
  cases hs with
  | obj hc hs => exact ⟨_, .inl ⟨hc, rfl⟩, hs⟩
  | objP hc hm hs => exact ⟨_, .inr ⟨hc, _, rfl, hm⟩, hs⟩

theorem Shows.weak_inv {v' : Val} {t : Tree} (hs : Shows w h' v' (.weak t)) :
    ∃ u, Boxed w.perlCompat h' v' u (.weak u) ∧ Shows w h' u t := by
  cases hs with
  | weak hc hs => exact ⟨_, .inl ⟨hc, rfl⟩, hs⟩
  | weakP hc hm hs => exact ⟨_, .inr ⟨hc, _, rfl, hm⟩, hs⟩

theorem Shows.frz_inv {cls data : Bytes} {v' : Val} (hpc : w.perlCompat = false)
    (hs : Shows w h' v' (.frz cls (.ref (.arr [.bin data])))) :
    PtrTo h' v' (if (w.registry cls).isSome then .thawed cls data else .frozen cls data) := by
  cases hs with
  | frozen hr g m n =>
    rw [frz_data hpc .bin g m] at n
    rcases hr with hr | hr
    · exact not_both hpc hr
    · refine ⟨_, rfl, ?_⟩; rw [hr]; exact n
  | thawed _ hr _ g m n =>
    rw [frz_data hpc .bin g m] at n
    refine ⟨_, rfl, ?_⟩; rw [hr]; exact n

theorem perm_two {xs : List (Bytes × Val)} {k1 k2 : Bytes} (hne : k1 ≠ k2) (hnd : (xs.map Prod.fst).Nodup)
    (hk : ∀ k, (mapLookup k xs).isSome = true ↔ k = k1 ∨ k = k2) : xs.length = 2 := by
  have h1 : (xs.map Prod.fst).Perm [k1, k2] := by
    refine (List.perm_ext_iff_of_nodup hnd (by simp [hne])).2 (fun k => ?_)
    rw [← mapLookup_isSome, hk]
    simp
  simpa using h1.length_eq

theorem Tidy.arrives {n : Nat} {v : Val} (hp : Tidy c w n h v) {rn : Bool} {t : Tree} (hw : Solo c h rn v t)
    {v' : Val} (hs : Shows w h' v' t) : ArrivesAs c w h h' rn v v' := by
  induction hp generalizing rn t v' with
  | nil => cases hw; exact .nil hs.undef_inv
  | bool => cases hw; cases hs; exact .bool
  | int => cases hw; exact .int hs.int_inv
  | uint => cases hw; exact .uint hs.int_inv
  | f32 => cases hw; cases hs; exact .f32
  | f64 => cases hw; cases hs; exact .f64
  | str => cases hw; cases hs; exact .str
  | bin => cases hw; cases hs; exact .bin
  | jnum =>
    cases hw with
    | jnumInt h1 h2 h3 => exact .jnumInt h1 h2 h3 hs.int_inv
    | jnumFloat h1 h2 h3 => cases hs; exact .jnumFloat h1 h3
    | jnumText h1 h2 =>
      cases hs
      rcases Classical.em (∃ z, IntText _ z) with ⟨z, hz⟩ | hz
      · exact .jnumBig hz (h1 z hz)
      · refine .jnumText (fun z hz' => hz ⟨z, hz'⟩) ?_
        rcases h2 with h2 | h2 | h2
        · exact absurd h2 hz
        · exact .inr h2
        · exact .inl h2
  | nbool => cases hw; cases hs; exact .nbool
  | nint =>
    cases hw with
    | nint h1 => exact .nint h1 hs.int_inv
    | nintWrap h1 h2 => exact .nintWrap h1 h2 hs.int_inv
  | nf32 => cases hw; cases hs; exact .nf32
  | nf64 => cases hw; cases hs; exact .nf64
  | nstr => cases hw; cases hs; exact .nstr
  | slice hl _ ih =>
    cases hw with
    | slice hW =>
      obtain ⟨u, hu, hs⟩ := hs.wrap_inv
      obtain ⟨p', rfl, h2⟩ := hs.arr_inv
      exact .slice hu
        (fun i hi => ih i hi (hW i _ (List.getElem?_eq_getElem hi)) (h2 i _ (List.getElem?_eq_getElem hi)))
  | rslice hl _ ih =>
    cases hw with
    | rslice hW =>
      obtain ⟨u, hu, hs⟩ := hs.wrap_inv
      obtain ⟨p', rfl, h2⟩ := hs.arr_inv
      exact .rslice hu
        (fun i hi => ih i hi (hW i _ (List.getElem?_eq_getElem hi)) (h2 i _ (List.getElem?_eq_getElem hi)))
  | smap hl hnd _ _ ih =>
    cases hw with
    | @smap _ _ kts hperm hW =>
      obtain ⟨u, hu, hs⟩ := hs.wrap_inv
      obtain ⟨m', rfl, h2, h3, h4⟩ := hs.map_inv
      refine .smap hu h2 (fun k => ?_) (fun k v v' hv hv' => ?_)
      · rw [h3, Bool.eq_iff_iff, mapLookup_isSome, lastLookup_isSome]
        exact hperm.mem_iff.symm
      · have h5 : (lastLookup k kts).isSome := by rw [← h3, hv']; rfl
        obtain ⟨t', ht'⟩ := Option.isSome_iff_exists.1 h5
        exact ih k v hv (hW k t' v (lastLookup_mem ht') hv) (h4 k v' t' hv' ht')
  | rmap hl hnd _ _ ih =>
    cases hw with
    | @rmap _ _ kts hperm hW =>
      obtain ⟨u, hu, hs⟩ := hs.wrap_inv
      obtain ⟨m', rfl, h2, h3, h4⟩ := hs.map_inv
      refine .rmap hu h2 (fun k => ?_) (fun k v v' hv hv' => ?_)
      · rw [h3, Bool.eq_iff_iff, mapLookup_isSome, lastLookup_isSome]
        exact hperm.mem_iff.symm
      · have h5 : (lastLookup k kts).isSome := by rw [← h3, hv']; rfl
        obtain ⟨t', ht'⟩ := Option.isSome_iff_exists.1 h5
        exact ih k v hv (hW k t' v (lastLookup_mem ht') hv) (h4 k v' t' hv' ht')
  | strct _ _ _ _ ih =>
    cases hw with
    | @strct _ _ _ kts hnd hkeys hW =>
      obtain ⟨x, hx, hs⟩ := hs.obj_inv
      obtain ⟨u, hu, hs⟩ := hs.wrap_inv
      obtain ⟨m', rfl, h2, h3, h4⟩ := hs.map_inv
      refine .strct hx hu h2 (fun k => ?_) (fun k v v' hv hv' => ?_)
      · rw [h3, Bool.eq_iff_iff, lastLookup_isSome, lastLookup_isSome]
        exact (hkeys k).symm
      · have h5 : (lastLookup k kts).isSome := by rw [← h3, hv']; rfl
        obtain ⟨t', ht'⟩ := Option.isSome_iff_exists.1 h5
        exact ih k v hv (hW k t' v (lastLookup_mem ht') hv) (h4 k v' t' hv' ht')
  | undef =>
    cases hw with
    | undef => exact .undef hs.undef_inv
    | cundef => exact .undef hs.cundef_inv
  | obj _ _ ih =>
    cases hw with
    | obj hW =>
      obtain ⟨x, hx, hs⟩ := hs.obj_inv
      exact .obj hx (ih hW hs)
  | weak _ ih =>
    cases hw with
    | weak hW =>
      obtain ⟨x, hx, hs⟩ := hs.weak_inv
      exact .weak hx (ih hW hs)
  | regexp => cases hw; cases hs with | regexp hm => exact .regexp ⟨_, rfl, hm⟩
  | @frozen cls d _ _ _ =>
    cases hw with
    | @frozen _ _ _ kts hperm =>
      obtain ⟨x, hx, hs⟩ := hs.obj_inv
      obtain ⟨u, hu, hs⟩ := hs.wrap_inv
      obtain ⟨m', rfl, h2, h3, h4⟩ := hs.map_inv
      have hne : nameClass ≠ nameData := by decide
      have hk : ∀ k, (lastLookup k kts).isSome = true ↔ k = nameClass ∨ k = nameData := by
        intro k
        rw [lastLookup_isSome, (hperm.map Prod.fst).mem_iff]
        simp
      have get : ∀ k, k = nameClass ∨ k = nameData → ∃ v t, mapLookup k (h'.mapAt m') = some v ∧
          (k, t) ∈ kts ∧ Shows w h' v t := by
        intro k hk'
        have h5 := (hk k).2 hk'
        obtain ⟨t, ht⟩ := Option.isSome_iff_exists.1 h5
        rw [← h3] at h5
        obtain ⟨v, hv⟩ := Option.isSome_iff_exists.1 h5
        exact ⟨v, t, hv, lastLookup_mem ht, h4 k v t hv ht⟩
      refine .frozen hx hu h2 ?_ ?_ (perm_two hne h2 (fun k => by rw [h3]; exact hk k))
      · obtain ⟨v, t, h5, h6, h7⟩ := get nameClass (.inl rfl)
        have h8 := hperm.mem_iff.1 h6
        simp only [List.mem_cons, Prod.mk.injEq, List.not_mem_nil, or_false] at h8
        rcases h8 with ⟨_, rfl⟩ | ⟨h9, _⟩
        · cases h7; exact h5
        · exact absurd h9 hne
      · obtain ⟨v, t, h5, h6, h7⟩ := get nameData (.inr rfl)
        have h8 := hperm.mem_iff.1 h6
        simp only [List.mem_cons, Prod.mk.injEq, List.not_mem_nil, or_false] at h8
        rcases h8 with ⟨h9, _⟩ | ⟨_, rfl⟩
        · exact absurd h9.symm hne
        · cases h7; exact h5
  | marshaler hf hpc _ _ _ _ =>
    cases hw with
    | marshaler => exact .marshaler hf (hs.frz_inv hpc)
    | marshalerOff hf' => rw [hf] at hf'; cases hf'
  | marshalerOff hf _ ih =>
    cases hw with
    | marshaler hf' => rw [hf] at hf'; cases hf'
    | marshalerOff _ hW => exact .marshalerOff hf (ih hW hs)
  | nilptr =>
    cases hw
    obtain ⟨u, hu, hs⟩ := hs.ref_inv
    exact .nilptr hu hs.undef_inv
  | perlPtr hps _ ih =>
    cases hw with
    | ptrPerl _ hW => exact .perlPtr hps (ih hW hs)
    | ptr hb => rw [hb rfl] at hps; cases hps
  | ptr hb _ ih =>
    cases hw with
    | ptrPerl hps _ => rw [hb rfl] at hps; cases hps
    | ptr _ hW =>
      obtain ⟨u, hu, hs⟩ := hs.ref_inv
      exact .ptr hb hu (ih hW hs)

/-- Round trip of values in which every pointer is met once. -/
theorem Tidy.roundtrip {cfg : ECfg} {cs : Codecs} {inp : Heap} {header : Option Val} {v : Val} {doc : Bytes}
    (dcfg : DCfg) (hp : Tidy cfg dcfg.view maxSize inp v) (hu : Unshared cfg inp v) (hord : ∀ n ks, (cfg.ord n ks).Perm ks)
    (hver : cfg.version ≤ 3) (hc : cfg.compression = none) (h : marshalWithHeader cfg cs inp header v = .ok doc)
    (hsz : doc.length < 2 ^ 63) :
    ∃ h' v', unmarshal dcfg cs doc = .ok (h', v') ∧ Arrives cfg dcfg.view inp h' v v' := by
  obtain ⟨t, hA, _, hr⟩ := raw_roundtrip_alone hord hu hver hc h hsz
  have hW := hA.solo
  obtain ⟨hs, hF⟩ := hp.tree hW
  obtain ⟨h', v', h1, h2⟩ := hr dcfg hF hs
  exact ⟨h', v', h1, hp.arrives hW h2⟩

end Sereal
