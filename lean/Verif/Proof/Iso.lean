import Verif.Proof.Tidy
/-
Two views of one tree (up to the order of pairs) are the same data.
-/
namespace Sereal

theorem not_both {b : Bool} {P : Prop} (h : b = false) (h' : b = true) : P := by rw [h] at h'; cases h'

theorem ShowsBin.shows {c : ViewCfg} {h : Heap} {data : Bytes} {t : Tree} (hb : ShowsBin c data t) {v : Val}
    (hs : Shows c h v t) : ¬ (∃ x, v = .bin x ∧ x ≠ data) := by
  rintro ⟨x, rfl, hx⟩
  induction hb with
  | bin => cases hs; exact hx rfl
  | ref _ _ ih => cases hs; rename_i h1; exact ih h1
  | weak _ _ ih => cases hs; rename_i h1; exact ih h1
  | obj _ _ ih => cases hs; rename_i h1; exact ih h1
  | refp _ _ ih => cases hs; rename_i h1; exact ih h1
  | alias _ ih => cases hs; rename_i h1; exact ih h1

theorem frz_data {c : ViewCfg} {h : Heap} {data data' : Bytes} {d : Tree} {p : Nat} (hpc : c.perlCompat = false)
    (hb : ShowsBin c data d) (hs : Shows c h (.slice p 1) (.ref (.arr [d]))) (hm : h.mem p = .cell (.bin data')) :
    data' = data := by
  generalize hv : Val.slice p 1 = v at hs
  cases hs with
  | refP h => exact not_both hpc h
  | ref _ hs =>
    subst hv
    obtain ⟨q, hq, h1⟩ := hs.arr_inv
    injection hq with h2
    subst h2
    have h3 := h1 0 d rfl
    unfold Heap.cellAt at h3
    rw [Nat.add_zero, hm] at h3
    exact Classical.byContradiction (fun hne => hb.shows h3 ⟨data', rfl, hne⟩)

theorem Heap.cellAt_eq {h : Heap} {a : Nat} {v : Val} (hm : h.mem a = .cell v) : h.cellAt a = v := by
  unfold Heap.cellAt; rw [hm]

theorem Iso.ptr_of {h1 h2 : Heap} {b b' : Bool} {a a' : Nat} {v v' : Val} (hm : h1.mem a = .cell v)
    (hm' : h2.mem a' = .cell v') (hi : Iso h1 h2 v v') : Iso h1 h2 (.ptr b a) (.ptr b' a') :=
  .ptr (by rw [Heap.cellAt_eq hm, Heap.cellAt_eq hm']; exact hi)

/-- Iso of two views of one tree. -/
theorem Supported.iso {c : ViewCfg} {h1 h2 : Heap} {t : Tree} (hs : Supported c t) {v1 v2 : Val}
    (s1 : Shows c h1 v1 t) (s2 : Shows c h2 v2 t) : Iso h1 h2 v1 v2 := by
  induction hs generalizing v1 v2 with
  | undef =>
    cases s1 with
    | undef h =>
      cases s2 with
      | undef => exact .nil
      | undefP h' => exact not_both h h'
    | undefP h m =>
      cases s2 with
      | undef h' => exact not_both h' h
      | undefP h' m' => exact .ptr_of m m' .undef
  | cundef =>
    cases s1 with
    | cundef h =>
      cases s2 with
      | cundef => exact .nil
      | cundefP h' => exact not_both h h'
    | cundefP h m =>
      cases s2 with
      | cundef h' => exact not_both h' h
      | cundefP h' m' => exact .ptr_of m m' .undef
  | bool => cases s1; cases s2; exact .bool
  | int =>
    rcases s1.int_inv with ⟨j, rfl, hj⟩ | ⟨u, rfl, hu, hj⟩ <;>
    rcases s2.int_inv with ⟨j', rfl, hj'⟩ | ⟨u', rfl, hu', hj'⟩
    · rw [i64_ext (hj.trans hj'.symm)]; exact .int
    · have := j.toInt_lt; omega
    · have := j'.toInt_lt; omega
    · have : u = u' := UInt64.toNat.inj (Int.ofNat.inj (hj.trans hj'.symm))
      rw [this]; exact .uint
  | f32 => cases s1; cases s2; exact .f32
  | f64 => cases s1; cases s2; exact .f64
  | str => cases s1; cases s2; exact .str
  | bin => cases s1; cases s2; exact .bin
  | arr _ ih =>
    obtain ⟨p, rfl, g⟩ := s1.arr_inv
    obtain ⟨p', rfl, g'⟩ := s2.arr_inv
    refine .slice (fun i hi => ?_)
    have he := List.getElem?_eq_getElem hi
    exact ih _ (List.getElem_mem hi) (g i _ he) (g' i _ he)
  | map _ ih =>
    obtain ⟨m, rfl, n1, k1, g⟩ := s1.map_inv
    obtain ⟨m', rfl, n2, k2, g'⟩ := s2.map_inv
    refine .smap n1 n2 (fun k => (k1 k).trans (k2 k).symm) (fun k v v' hv hv' => ?_)
    have hsome := k1 k
    rw [hv] at hsome
    obtain ⟨t, ht⟩ := Option.isSome_iff_exists.1 hsome.symm
    exact ih k t (lastLookup_mem ht) (g k v t hv ht) (g' k v' t hv' ht)
  | ref _ ih =>
    cases s1 with
    | ref h s1 =>
      cases s2 with
      | ref _ s2 => exact ih s1 s2
      | refP h' => exact not_both h h'
    | refP h m s1 =>
      cases s2 with
      | ref h' => exact not_both h' h
      | refP _ m' s2 => exact .ptr_of m m' (ih s1 s2)
  | refp _ _ ih =>
    cases s1 with
    | refp h m s1 =>
      cases s2 with
      | refp _ m' s2 => exact .ptr_of m m' (ih s1 s2)
      | refpI h' => exact not_both h h'
    | refpI h s1 =>
      cases s2 with
      | refp h' => exact not_both h' h
      | refpI _ s2 => exact ih s1 s2
  | alias _ ih => cases s1 with | alias s1 => cases s2 with | alias s2 => exact ih s1 s2
  | weak _ ih =>
    cases s1 with
    | weak h s1 =>
      cases s2 with
      | weak _ s2 => exact ih s1 s2
      | weakP h' => exact not_both h h'
    | weakP h m s1 =>
      cases s2 with
      | weak h' => exact not_both h' h
      | weakP _ m' s2 => exact .ptr_of m m' (.weak (ih s1 s2))
  | obj _ ih =>
    cases s1 with
    | obj h s1 =>
      cases s2 with
      | obj _ s2 => exact ih s1 s2
      | objP h' => exact not_both h h'
    | objP h m s1 =>
      cases s2 with
      | obj h' => exact not_both h' h
      | objP _ m' s2 => exact .ptr_of m m' (.obj (ih s1 s2))
  | regexp => cases s1 with | regexp m => cases s2 with | regexp m' => exact .ptr_of m m' .regexp
  | frz hpc _ hb _ ih =>
    cases s1 with
    | frozen h g m n =>
      have e := frz_data hpc hb g m
      cases s2 with
      | frozen h' g' m' n' =>
        have e' := frz_data hpc hb g' m'
        subst e; subst e'
        exact .ptr_of n n' .frozen
      | thawed _ h' =>
        rcases h with h | h
        · exact not_both hpc h
        · rw [h] at h'; cases h'
    | thawed _ h _ g m n =>
      have e := frz_data hpc hb g m
      cases s2 with
      | frozen h' g' m' n' =>
        rcases h' with h' | h'
        · exact not_both hpc h'
        · rw [h] at h'; cases h'
      | thawed _ h' _ g' m' n' =>
        have e' := frz_data hpc hb g' m'
        subst e; subst e'
        exact .ptr_of n n' .thawed

theorem Supported.arr_elem {c : ViewCfg} {ts : List Tree} (h : Supported c (.arr ts)) : ∀ t ∈ ts, Supported c t := by
  cases h; assumption

theorem Supported.map_elem {c : ViewCfg} {kvs : List (Bytes × Tree)} (h : Supported c (.map kvs)) :
    ∀ k t, (k, t) ∈ kvs → Supported c t := by
  cases h; assumption

theorem TreeEq.iso {c : ViewCfg} {h1 h2 : Heap} {t t' : Tree} (he : TreeEq t t') (hs : Supported c t) {v1 v2 : Val}
    (s1 : Shows c h1 v1 t) (s2 : Shows c h2 v2 t') : Iso h1 h2 v1 v2 := by
  induction he generalizing v1 v2 with
  | refl => exact hs.iso s1 s2
  | @arr ts ts' hl _ ih =>
    obtain ⟨p, rfl, g⟩ := s1.arr_inv
    obtain ⟨p', rfl, g'⟩ := s2.arr_inv
    rw [← hl]
    refine .slice (fun i hi => ?_)
    have e1 := List.getElem?_eq_getElem hi
    have e2 := List.getElem?_eq_getElem (hl ▸ hi : i < ts'.length)
    exact ih i _ _ e1 e2 (hs.arr_elem _ (List.getElem_mem hi)) (g i _ e1) (g' i _ e2)
  | @map kts kts' hnd hperm _ ih =>
    obtain ⟨m, rfl, n1, k1, g⟩ := s1.map_inv
    obtain ⟨m', rfl, n2, k2, g'⟩ := s2.map_inv
    have hk : ∀ k, (lastLookup k kts).isSome = (lastLookup k kts').isSome := by
      intro k
      rw [Bool.eq_iff_iff, lastLookup_isSome, lastLookup_isSome, hperm.mem_iff]
    refine .smap n1 n2 (fun k => ((k1 k).trans (hk k)).trans (k2 k).symm) (fun k v v' hv hv' => ?_)
    have hsome := k1 k
    rw [hv] at hsome
    obtain ⟨t, ht⟩ := Option.isSome_iff_exists.1 hsome.symm
    have hsome' := k2 k
    rw [hv'] at hsome'
    obtain ⟨t', ht'⟩ := Option.isSome_iff_exists.1 hsome'.symm
    exact ih k t t' (lastLookup_mem ht) (lastLookup_mem ht') (hs.map_elem k t (lastLookup_mem ht))
      (g k v t hv ht) (g' k v' t' hv' ht')
  | @ref t0 _ _ ih =>
    have hs' : Supported c t0 := by cases hs; assumption
    cases s1 with
    | ref h s1 =>
      cases s2 with
      | ref _ s2 => exact ih hs' s1 s2
      | refP h' => exact not_both h h'
    | refP h m s1 =>
      cases s2 with
      | ref h' => exact not_both h' h
      | refP _ m' s2 => exact .ptr_of m m' (ih hs' s1 s2)
  | @weak t0 _ _ ih =>
    have hs' : Supported c t0 := by cases hs; assumption
    cases s1 with
    | weak h s1 =>
      cases s2 with
      | weak _ s2 => exact ih hs' s1 s2
      | weakP h' => exact not_both h h'
    | weakP h m s1 =>
      cases s2 with
      | weak h' => exact not_both h' h
      | weakP _ m' s2 => exact .ptr_of m m' (.weak (ih hs' s1 s2))
  | @obj _ t0 _ _ ih =>
    have hs' : Supported c t0 := by cases hs; assumption
    cases s1 with
    | obj h s1 =>
      cases s2 with
      | obj _ s2 => exact ih hs' s1 s2
      | objP h' => exact not_both h h'
    | objP h m s1 =>
      cases s2 with
      | obj h' => exact not_both h' h
      | objP _ m' s2 => exact .ptr_of m m' (.obj (ih hs' s1 s2))

/-- Two documents written from one value in which every pointer is met once decode to the same data. -/
theorem two_docs {cfg cfg' : ECfg} {cs : Codecs} {inp : Heap} {v : Val} {header header' : Option Val} {doc doc' : Bytes}
    {dcfg : DCfg} (hp : Tidy cfg dcfg.view maxSize inp v) (hu : Unshared cfg inp v) (hu' : Unshared cfg' inp v) (ha : cfg.Alike cfg')
    (hord : ∀ n ks, (cfg.ord n ks).Perm ks) (hord' : ∀ n ks, (cfg'.ord n ks).Perm ks)
    (hver : cfg.version ≤ 3) (hver' : cfg'.version ≤ 3)
    (hc : cfg.compression = none) (hc' : cfg'.compression = none)
    (hm : marshalWithHeader cfg cs inp header v = .ok doc) (hm' : marshalWithHeader cfg' cs inp header' v = .ok doc')
    (hsz : doc.length < 2 ^ 63) (hsz' : doc'.length < 2 ^ 63) :
    ∃ h1 v1 h2 v2, unmarshal dcfg cs doc = .ok (h1, v1) ∧ unmarshal dcfg cs doc' = .ok (h2, v2) ∧
      Iso h1 h2 v1 v2 := by
  obtain ⟨t, hA, _, hD⟩ := raw_roundtrip_alone hord hu hver hc hm hsz
  obtain ⟨t', hA', _, hD'⟩ := raw_roundtrip_alone hord' hu' hver' hc' hm' hsz'
  have hW := hA.solo
  have hW' := hA'.solo
  obtain ⟨hs, hf⟩ := hp.tree hW
  have hp' : Tidy cfg' dcfg.view maxSize inp v := hp.alike ha
  obtain ⟨hs', hf'⟩ := hp'.tree hW'
  obtain ⟨h1, v1, hr, s1⟩ := hD dcfg hf hs
  obtain ⟨h2, v2, hr', s2⟩ := hD' dcfg hf' hs'
  exact ⟨h1, v1, h2, v2, hr, hr', (hp.unique ha hW hW').iso hs s1 s2⟩

end Sereal
