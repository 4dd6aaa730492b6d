import Verif.Proof.LayRun
/-
Decoding what Marshal writes for values with shared and cyclic pointers to structs: every kind of item, and the
whole run.
-/
namespace Sereal

section
variable {cfg : DCfg} {tc : TCfg} {inp : Heap} {A : Nat → Option Nat} {B : Bytes}

theorem arrayMem_pass {rec : MRec} {p n : Nat} {t : Target} {s : MSt} (hB : B.length ≤ maxSize) (hn : p + n ≤ B.length) :
    arrayMem cfg B rec p n t s = (match t.ty with
      | .slice _ => do
        if (← t.read).len = 0 then t.makeSlice (List.replicate n .zero)
        let v ← t.read
        elemsMem cfg B rec t v.len n 0 p
      | .arr m _ => elemsMem cfg B rec t m n 0 p
      | _ => M.err (.msg "reflect: call of sereal.decodeArrayViaReflection on another kind") : M Nat) s := by
  unfold arrayMem
  have hneg : ¬ ((n : Int) < 0 ∨ (n : Int) > maxInt32) := by
    simp only [maxSize] at hB; simp only [maxInt32]; omega
  rw [M.bind_eq (M.failIf_pass hneg), Int.toNat_natCast, M.bind_eq (M.failIf_pass (by omega))]
  rfl

theorem run_slice (hB : B.length ≤ maxSize) {pc : Bool} {v : Val} {q n p i j : Nat} {own own' : Own} (hv : IsSlice v q n)
    (hs : Span B i ((if pc then [typeREFN] else []) ++ typeARRAY :: varint n) p) (hnB : p + n ≤ B.length)
    (ih : LRun cfg tc inp A B p own j own' (.elems (sliceVals inp q n))) : LRun cfg tc inp A B i own j own' (.item v) := by
  intro ty hfit f s ρ l hf hi hcl hl hlb hz
  have hlen : (sliceVals inp q n).length = n := by simp [sliceVals]
  have hip := hs.le
  have hget : ∀ x, x < n → (sliceVals inp q n)[x]? = some (inp.cellAt (q + x)) := by
    intro x hx; simp [sliceVals, hx]
  -- slices
  have slice : ∀ e, (∀ x, x < n → Fit tc inp A e (inp.cellAt (q + x))) → ty = .slice e →
      ∃ s' ρ', decodeMem cfg tc B f i (varAt ty l) s = (.ok j, s') ∧
        MPost tc inp A B own' j (· = l) (fun _ => False) s s' ρ ρ' ∧
        Copied tc inp ρ' s'.mem s.mem.next s'.mem.next ty v (s'.mem.get l) := by
    rintro e he rfl
    obtain ⟨f', e1, hf'⟩ := array_head (cfg := cfg) (tc := tc) (f := f) (t := varAt (.slice e) l) s hB hs hnB (by simp [varAt]) hf
    let s2 : MSt := { s with mem := ((s.mem.new (.multi (List.replicate n .zero))).put l (.slice ⟨s.mem.next, []⟩ 0 n n)) }
    have hw : Wrote s.mem s2.mem l := .newPut _ hl _ _
    have hgl : s2.mem.get l = .slice ⟨s.mem.next, []⟩ 0 n n := Mem.get_put _ hl _
    have hnx : s2.mem.next = s.mem.next + 1 := rfl
    have hi2 : DInv A B own p s2 ρ := (hi.wrote (s' := s2) hw hcl rfl ⟨rfl, rfl, rfl⟩).advance hip
    have hap : ∀ z : Spot, z.base < s.mem.next → ∀ x, Separate z (Spot.sub ⟨s.mem.next, []⟩ x n) := fun z hz x => .base (by
      show z.base ≠ s.mem.next; omega)
    obtain ⟨s', ρ', e2, p2, c2⟩ := ih e (fun u hu => by
        obtain ⟨x, hx, rfl⟩ := sliceVals_mem hu
        exact he x hx) f' s2 ρ (varAt (.slice e) l) ⟨s.mem.next, []⟩ n 0 (by omega) hi2 (.nil _) (Nat.lt_succ_self _)
      (fun x _ _ o y t z ho hp => hap z (hi.tlt o y t z ho hp) x)
      (fun x _ hx => by
        show ((s.mem.new (.multi (List.replicate n .zero))).put l (.slice ⟨s.mem.next, []⟩ 0 n n)).get _ = _
        rw [Mem.get_put_apart _ hl (hap l hlb x).symm, Mem.get_sub, Mem.get_new_here, MVal.part_multi hx]
        simp [List.getD, hx])
      ⟨rfl, .inr ⟨rfl, l, rfl, by show l.base ≠ s.mem.next; omega, by omega, hgl⟩⟩ (by omega)
    have hgl' : s'.mem.get l = .slice ⟨s.mem.next, []⟩ 0 n n := by
      rw [p2.frame l (by omega) (by rintro z ⟨x, _, _, rfl⟩; exact hap l hlb x)]; exact hgl
    refine ⟨s', ρ', ?_, ?_, ?_⟩
    · rw [e1, arrayMem_pass hB hnB]
      show (do
        if (← (varAt (.slice e) l).read).len = 0 then (varAt (.slice e) l).makeSlice (List.replicate n .zero)
        let v ← (varAt (.slice e) l).read
        elemsMem cfg B (decodeMem cfg tc B f') (varAt (.slice e) l) v.len n 0 p : M Nat) s = _
      rw [M.bind_eq (Target.read_var rfl _), hz]
      have hmk : (varAt (.slice e) l).makeSlice (List.replicate n .zero) s = (.ok (), s2) := by
        unfold Target.makeSlice
        rw [M.bind_eq (show newVar (.multi (List.replicate n .zero)) s = (.ok ⟨s.mem.next, []⟩, { s with mem := s.mem.new (.multi (List.replicate n .zero)) }) from rfl),
          Target.write_var rfl rfl, List.length_replicate]
      show ((varAt (.slice e) l).makeSlice (List.replicate n .zero) >>= fun _ => _) s = _
      rw [M.bind_eq hmk, M.bind_eq (Target.read_var rfl _), hgl]
      show elemsMem cfg B (decodeMem cfg tc B f') (varAt (.slice e) l) n n 0 p s2 = _
      rw [hlen] at e2
      exact e2
    · refine (MPost.pre (s := s) (ρ := ρ) (M' := fun _ => False) hw p2 (fun o x t z ho _ => .inl ho) (fun _ _ h => h)
        (fun _ _ h => .inl h) (fun _ h => .inl h)).weaken ?_ (fun _ h => .inl h)
      rintro z (rfl | ⟨x, _, _, rfl⟩)
      · exact .inl ⟨z, rfl, .refl _⟩
      · exact .inr (Nat.le_refl _)
    · rw [hgl']
      have hn2 := p2.next
      refine .slice hv (Nat.le_refl _) (by show s.mem.next < _; omega) (by omega) fun x hx => ?_
      exact (c2 x _ (hget x hx)).stable (fun _ _ _ => rfl) (fun _ _ _ => rfl) (fun _ _ h => h) (by omega) (Nat.le_refl _)
  rcases hv with rfl | rfl
  · cases hfit with
    | slice h he =>
      rcases h with h | h <;> cases h
      exact slice _ he rfl
    | map h => rcases h with h | h <;> cases h
  · cases hfit with
    | slice h he =>
      rcases h with h | h <;> cases h
      exact slice _ he rfl
    | map h => rcases h with h | h <;> cases h
    | @arr e _ _ he =>
      obtain ⟨f', e1, hf'⟩ := array_head (cfg := cfg) (tc := tc) (f := f) (t := varAt (.arr n e) l) s hB hs hnB (by simp [varAt]) hf
      obtain ⟨s', ρ', e2, p2, c2⟩ := ih e (fun u hu => by
          obtain ⟨x, hx, rfl⟩ := sliceVals_mem hu
          exact he x hx) f' s ρ (varAt (.arr n e) l) l n 0 (by omega) (hi.advance hip) hl hlb
        (fun x _ _ => hcl.sub _ _) (fun x _ hx => by rw [Mem.get_sub, hz, MVal.part_zero]) ⟨rfl, .inl ⟨rfl, rfl⟩⟩ (by omega)
      refine ⟨s', ρ', ?_, p2.weaken ?_ (fun _ h => .inl h), .arr fun x hx => ?_⟩
      · rw [e1, arrayMem_pass hB hnB]
        rw [hlen] at e2
        exact e2
      · rintro z ⟨x, _, _, rfl⟩; exact .inl ⟨l, rfl, .sub _ _ _⟩
      · rw [← Mem.get_sub]
        have := c2 x _ (hget x hx)
        rw [Nat.zero_add] at this
        exact this

theorem run_map (hB : B.length ≤ maxSize) {pc : Bool} {v : Val} {m n p i j : Nat} {kvs : List (Bytes × Val)} {own own' : Own}
    (hv : IsMap v m) (hs : Span B i ((if pc then [typeREFN] else []) ++ typeHASH :: varint n) p) (hn : kvs.length = n)
    (hnB : p + 2 * n ≤ B.length) (hls : Listed (inp.mapAt m) kvs)
    (ih : LRun cfg tc inp A B p own j own' (.pairs kvs)) : LRun cfg tc inp A B i own j own' (.item v) := by
  intro ty hfit f s ρ l hf hi hcl hl hlb hz
  have hip := hs.le
  have key : ∀ e, ((inp.mapAt m).map Prod.fst).Nodup → (∀ k u, mapLookup k (inp.mapAt m) = some u → Fit tc inp A e u) → ty = .map e →
      ∃ s' ρ', decodeMem cfg tc B f i (varAt ty l) s = (.ok j, s') ∧
        MPost tc inp A B own' j (· = l) (fun _ => False) s s' ρ ρ' ∧
        Copied tc inp ρ' s'.mem s.mem.next s'.mem.next ty v (s'.mem.get l) := by
    rintro e hnd he rfl
    obtain ⟨hperm, hvals⟩ := hls
    have hin : ∀ k u, (k, u) ∈ kvs → mapLookup k (inp.mapAt m) = some u := by
      intro k u hku
      obtain ⟨u', hu'⟩ := mapLookup_mem' (hperm.mem_iff.1 (List.mem_map.2 ⟨_, hku, rfl⟩))
      rw [hvals k u hku, hu']; rfl
    obtain ⟨f', e1, hf'⟩ := hash_head (cfg := cfg) (tc := tc) (f := f) (t := varAt (.map e) l) s hB hs hnB (by simp [varAt]) hf
    let s2 : MSt := { s with mem := s.mem.newMap.put l (.map s.mem.next) }
    have hw : Wrote s.mem s2.mem l := .mapPut _ hl _
    have hgl : s2.mem.get l = .map s.mem.next := Mem.get_put _ hl _
    have hnx : s2.mem.next = s.mem.next + 1 := rfl
    have hmaps : s2.mem.maps s.mem.next = [] := if_pos rfl
    have hi2 : DInv A B own p s2 ρ := (hi.wrote (s' := s2) hw hcl rfl ⟨rfl, rfl, rfl⟩).advance hip
    obtain ⟨s', ρ', e2, p2, c2, n2⟩ := (ih (hperm.nodup_iff.2 hnd)).1 e (fun k u hku => he k u (hin k u hku)) f' s2 ρ l s.mem.next
      (by omega) hi2 (by omega) (by omega) hgl (fun k _ => by rw [hmaps]; rfl)
    have hgl' : s'.mem.get l = .map s.mem.next := by
      rw [p2.frame l (by omega) (fun _ h => h.elim)]; exact hgl
    have hn2 := p2.next
    refine ⟨s', ρ', ?_, ?_, ?_⟩
    · rw [e1]
      show (do
        if (← (varAt (.map e) l).read).isZero then
          let m ← newMap
          (varAt (.map e) l).write (.map m)
        entriesMem B (decodeMem cfg tc B f') e (varAt (.map e) l) n p : M Nat) s = _
      rw [M.bind_eq (Target.read_var rfl _), hz]
      show ((newMap >>= fun m => (varAt (.map e) l).write (.map m)) >>= fun _ => _) s = _
      rw [M.bind_eq (show (newMap >>= fun m => (varAt (.map e) l).write (.map m)) s = (.ok (), s2) from by
        rw [M.bind_eq (show newMap s = (.ok s.mem.next, { s with mem := s.mem.newMap }) from rfl), Target.write_var rfl rfl])]
      rw [← hn]
      exact e2
    · refine (MPost.pre (s := s) (ρ := ρ) (M' := fun _ => False) hw p2 (fun o x t z ho _ => .inl ho) (fun _ _ h => h)
        (fun _ _ h => .inl h) (fun _ h => .inr (Nat.le_of_eq h.symm))).weaken ?_ (fun _ h => .inl h)
      rintro z (rfl | h)
      · exact .inl ⟨z, rfl, .refl _⟩
      · exact h.elim
    · rw [hgl']
      refine .map hv (Nat.le_refl _) (by omega) (fun k => ?_) (fun k u w hu hw => ?_)
      · by_cases hk : k ∈ kvs.map Prod.fst
        · obtain ⟨⟨k', u⟩, hku, rfl⟩ := List.mem_map.1 hk
          obtain ⟨w, hw, -⟩ := c2 k' u hku
          show (mapLookup k' _).isSome = (mapLookup k' _).isSome
          rw [hin k' u hku, hw]; rfl
        · rw [n2 k hk, hmaps]
          have : ¬ (mapLookup k (inp.mapAt m)).isSome = true := fun h => hk (hperm.mem_iff.2 ((mapLookup_isSome _ _).1 h))
          rw [Bool.not_eq_true] at this
          rw [this]; rfl
      · have hk : k ∈ kvs.map Prod.fst := hperm.mem_iff.2 ((mapLookup_isSome _ _).1 (by rw [hu]; rfl))
        obtain ⟨⟨k', u'⟩, hku, rfl⟩ := List.mem_map.1 hk
        obtain ⟨w', hw', hc⟩ := c2 k' u' hku
        have h1 := hin k' u' hku
        rw [show mapLookup k' (inp.mapAt m) = some u from hu] at h1
        cases h1
        rw [show mapLookup k' (s'.mem.maps s.mem.next) = some w from hw] at hw'
        cases hw'
        exact hc.stable (fun _ _ _ => rfl) (fun _ _ _ => rfl) (fun _ _ h => h) (by omega) (Nat.le_refl _)
  rcases hv with rfl | rfl <;> cases hfit with
  | slice h => rcases h with h | h <;> cases h
  | map h hnd he =>
    rcases h with h | h <;> cases h
    exact key _ hnd he rfl

theorem run_again (hB : B.length ≤ maxSize) {a o i j : Nat} {b : UInt8} {own : Own} (hs : Span B i (typeREFP :: varint o) j)
    (ho : own o = some a) (hb : B[o]? = some b) (hfl : 128 ≤ b.toNat) (hoi : o < i) :
    LRun cfg tc inp A B i own j own (.item (.ptr false a)) := by
  intro ty hfit f s ρ l hf hi hcl hl hlb hz
  cases hfit with
  | slice h => rcases h with h | h <;> cases h
  | map h => rcases h with h | h <;> cases h
  | @ptr id _ ha =>
  obtain ⟨x, z, c, id', h1, h2, h3, h4, h5⟩ := hi.trk o a b ho hb hfl
  rw [ha] at h5; cases h5
  have hlt := (List.getElem?_eq_some_iff.1 hs.head.1).1
  have hij := hs.le
  obtain ⟨e1, hj⟩ := varint_at s.d hs.head.2 (by have := (List.getElem?_eq_some_iff.1 hb).1; omega)
  cases f with
  | zero => omega
  | succ f =>
  have hw : Wrote s.mem (s.mem.put l (.ptr ⟨c, []⟩)) l := .put _ hl _
  refine ⟨{ s with mem := s.mem.put l (.ptr ⟨c, []⟩) }, ρ, ?_, MPost.leaf hi hij hw hcl rfl ⟨rfl, rfl, rfl⟩, ?_⟩
  · rw [mem_plain s hs (by decide) (by decide) (by simp [varAt])]
    show refpMem cfg B (i + 1) true (varAt (.ptr (.strct id)) l) s = _
    unfold refpMem
    rw [M.bind_eq (M.lift_eq e1)]
    dsimp only
    rw [hj, M.bind_eq (M.failIf_pass (by omega)), M.bind_eq (show M.get s = (.ok s, s) from rfl)]
    rw [Int.toNat_natCast, h2, h1]
    dsimp only
    rw [if_pos rfl, M.bind_eq (Target.read_var rfl _)]
    rw [h3]
    dsimp only
    rw [if_neg (by simp [varAt]), M.bind_eq (M.failIf_pass (by simp [varAt]))]
    show ((varAt (.ptr (.strct id)) l).assign (.ptr (.strct id)) (.ptr ⟨c, []⟩) >>= fun _ => pure j : M Nat) s = _
    have has : (varAt (.ptr (.strct id)) l).assign (.ptr (.strct id)) (.ptr ⟨c, []⟩) s =
        (.ok (), { s with mem := s.mem.put l (.ptr ⟨c, []⟩) }) := by
      unfold Target.assign
      rw [if_pos (show (varAt (.ptr (.strct id)) l).ty = .ptr (.strct id) from rfl), Target.write_var rfl rfl]
    rw [M.bind_eq has]
    rfl
  · show Copied tc inp ρ _ _ _ _ _ ((s.mem.put l (.ptr ⟨c, []⟩)).get l)
    rw [Mem.get_put _ hl]
    exact .ptr h4

/-- What the encoder has written is decoded. -/
theorem lay_run {c : ECfg} (hB : B.length ≤ maxSize) (hpc : cfg.perlCompat = false) (hset : Settable tc) (hfl : Faithful tc)
    (hA : FitsAt tc inp A) {job : LJob} {i j : Nat} {own own' : Own} (h : Lay c inp B job i own j own') :
    LRun cfg tc inp A B i own j own' job := by
  induction h with
  | leaf hw hs =>
    intro ty hfit f s ρ l hf hi hcl hl hlb hz
    obtain ⟨d', m', e, h1, h2, h3⟩ := leaf_decode (ρ := ρ) hB hpc hfl hfit hw hs hf s hl hz hlb
    exact ⟨_, ρ, e, MPost.leaf hi hs.le h2 hcl rfl h1, h3⟩
  | ptr hb hb2 hno hcell hh hn hent hl ih =>
    have h1 := hl.ends
    have h2 := h1.2 hh.lt.2
    simp only [LJob.ends] at h1
    exact run_ptr hB hpc hset hA hb hb2 hno hcell hh hn (by omega) hent ih
  | again hs ho hb hfl hoi => exact run_again hB hs ho hb hfl hoi
  | @strct name fa n p kvs i j own own' hh hn hent hl ih =>
    have h1 := hl.ends
    have h2 := h1.2 hh.lt.2
    have h3 := hh.lt
    simp only [LJob.ends] at h1
    intro ty hfit f s ρ l hf hi hcl hlo hlb hz
    cases hfit with
    | slice h => rcases h with h | h <;> cases h
    | map h => rcases h with h | h <;> cases h
    | @strct id _ _ q1 q2 q3 =>
      obtain ⟨f', d', e1, hd, hf'⟩ := strct_head (cfg := cfg) (tc := tc) (f := f) (t := varAt (.strct id) l) s hB hpc hh (by omega)
        (by simp [varAt]) hf hi.cd
      obtain ⟨s', ρ', e2, p2, c2⟩ := run_fields (f := f') hset (.strct q1 q2 q3) hent ih (s := { s with d := d' }) (ρ := ρ)
        (.strct id) hf' ((hi.eqv hd).advance (by omega)) hcl hlo hlb hz
      refine ⟨s', ρ', ?_, p2.ofEqv, c2⟩
      rw [e1, ← hn]
      exact e2
  | slice hv hs hl ih =>
    have h1 := hl.ends
    simp only [LJob.ends, sliceVals, List.length_map, List.length_range] at h1
    have h2 := h1.2 (hs.le_length (by
      have := hs.2
      simp only [List.length_append, List.length_cons] at this
      have h5 : ∀ {i p : Nat} {w : Bytes}, Span B i w p → w ≠ [] → i ≤ B.length := by
        intro i p w h hw
        cases w with
        | nil => exact absurd rfl hw
        | cons b w => exact Nat.le_of_lt (List.getElem?_eq_some_iff.1 h.head.1).1
      exact h5 hs (by simp)))
    exact run_slice hB hv hs (by omega) ih
  | map hv hs hn hls hl ih =>
    have h1 := hl.ends
    simp only [LJob.ends] at h1
    have h2 := h1.2 (hs.le_length (by
      have h5 : ∀ {i p : Nat} {w : Bytes}, Span B i w p → w ≠ [] → i ≤ B.length := by
        intro i p w h hw
        cases w with
        | nil => exact absurd rfl hw
        | cons b w => exact Nat.le_of_lt (List.getElem?_eq_some_iff.1 h.head.1).1
      exact h5 hs (by simp)))
    exact run_map hB hv hs hn (by omega) hls ih
  | elemsNil =>
    intro e _ f s ρ t l N k _ hi _ _ _ _ _ _
    exact ⟨s, ρ, rfl, .refl hi, fun x v h => by simp at h⟩
  | elemsCons h1 _ ih1 ih2 => exact run_elemsCons ih1 ih2 (Nat.le_of_lt h1.ends.1)
  | pairsNil =>
    intro _
    refine ⟨fun e _ f s ρ l0 m _ hi _ _ _ _ => ⟨s, ρ, rfl, .refl hi, fun k v h => by simp at h, fun _ _ => rfl⟩, ?_⟩
    exact fun fs ty _ f s ρ l _ hi _ _ _ _ => ⟨s, ρ, rfl, .refl hi, fun k v x g h => by simp at h⟩
  | pairsCons hk h1 _ ih1 ih2 => exact run_pairsCons hB hk ih1 ih2 (Nat.le_of_lt h1.ends.1)

end
end Sereal
