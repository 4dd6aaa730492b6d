import Verif.Proof.LayDecode
/-
Decoding what Marshal writes for values with shared and cyclic pointers to structs.
-/
namespace Sereal

section
variable {cfg : DCfg} {tc : TCfg} {inp : Heap} {A : Nat → Option Nat} {B : Bytes}

theorem opt_refn {pc : Bool} {x : UInt8} {w : Bytes} {i p f : Nat} {t : Target} (s : MSt)
    (h : Span B i ((if pc then [typeREFN] else []) ++ x :: w) p) (hx : x.toNat < 128) (hx' : x.toNat ≠ 0x3f)
    (hty : t.ty ≠ .iface) (hf : B.length ≤ i + f) :
    ∃ f' k, decodeMem cfg tc B f i t s = memC cfg tc B (decodeMem cfg tc B f') (classify x.toNat) (k + 1) t x.toNat s ∧
      Span B (k + 1) w p ∧ B.length ≤ k + 1 + f' ∧ k < B.length := by
  have one : ∀ {i f : Nat}, Span B i (x :: w) p → B.length ≤ i + f →
      ∃ f' k, decodeMem cfg tc B f i t s = memC cfg tc B (decodeMem cfg tc B f') (classify x.toNat) (k + 1) t x.toNat s ∧
      Span B (k + 1) w p ∧ B.length ≤ k + 1 + f' ∧ k < B.length := by
    intro i f h hf
    have hi := (List.getElem?_eq_some_iff.1 h.head.1).1
    cases f with
    | zero => omega
    | succ f => exact ⟨f, i, mem_plain s h hx hx' hty, h.head.2, by omega, hi⟩
  cases pc with
  | false => exact one h hf
  | true =>
    have hi := (List.getElem?_eq_some_iff.1 h.head.1).1
    cases f with
    | zero => omega
    | succ f =>
      obtain ⟨f', k, e, h1, h2⟩ := one (f := f) h.head.2 (by omega)
      refine ⟨f', k, ?_, h1, h2⟩
      rw [← e]
      exact mem_plain s h (by decide) (by decide) hty

theorem checkHash_pass {i n : Nat} (d : DState) (hn : n ≤ maxSize) (hi : i + 2 * n ≤ B.length) :
    checkHash B i n d = (.ok (), d) := by
  unfold checkHash
  have hneg : ¬ ((n : Int) < 0 ∨ (n : Int) > maxInt32) := by
    simp only [maxSize] at hn; simp only [maxInt32]; omega
  rw [D.bind_eq (D.failIf_pass hneg), Int.toNat_natCast]
  exact D.failIf_pass (by omega)

theorem hash_head {pc : Bool} {i n p f : Nat} {t : Target} (s : MSt) (hB : B.length ≤ maxSize)
    (h : Span B i ((if pc then [typeREFN] else []) ++ typeHASH :: varint n) p) (hn : p + 2 * n ≤ B.length)
    (hty : t.ty ≠ .iface) (hf : B.length ≤ i + f) :
    ∃ f', decodeMem cfg tc B f i t s = hashMem cfg tc B (decodeMem cfg tc B f') p n t.ty t s ∧ B.length ≤ p + f' := by
  obtain ⟨f', k, e, h1, h2, h3⟩ := opt_refn (cfg := cfg) (tc := tc) s h (by decide) (by decide) hty hf
  obtain ⟨e2, hj⟩ := varint_at s.d h1 (by omega)
  refine ⟨f', ?_, by have := h1.le; omega⟩
  rw [e]
  show memC _ _ _ _ .hash _ _ _ _ = _
  unfold memC
  dsimp only
  rw [M.bind_eq (M.lift_eq e2)]
  dsimp only
  rw [hj]
  unfold checkedHashMem
  rw [M.bind_eq (M.lift_eq (checkHash_pass s.d (by omega) hn))]
  rfl

theorem strct_head {pc : Bool} {name : Bytes} {i n p f : Nat} {t : Target} (s : MSt) (hB : B.length ≤ maxSize)
    (hpc : cfg.perlCompat = false) (h : StrctHead pc B name n i p) (hn : p + 2 * n ≤ B.length)
    (hty : t.ty ≠ .iface) (hf : B.length ≤ i + f) (hcd : s.d.cd = false) :
    ∃ f' d', decodeMem cfg tc B f i t s = hashMem cfg tc B (decodeMem cfg tc B f') p n t.ty t { s with d := d' } ∧
      s.d.Eqv d' ∧ B.length ≤ p + f' := by
  obtain ⟨k, h1, h2, h3⟩ := h
  have hi := (List.getElem?_eq_some_iff.1 h1.head.1).1
  have hk := h2.lt
  cases f with
  | zero => omega
  | succ f =>
    have hlen : B.length < 2 ^ 63 := Nat.lt_of_le_of_lt hB (by decide)
    obtain ⟨d', e, hd⟩ := decodeClassName_of (isV := false) hlen (.inl ⟨rfl, h2.up wrtDialect_le_go⟩) s.d hcd
    obtain ⟨f', e2, h4⟩ := hash_head (cfg := cfg) (tc := tc) (f := f) { s with d := d' } hB h3 hn hty (by omega)
    refine ⟨f', d', ?_, hd, h4⟩
    rw [mem_plain s h1 (by decide) (by decide) hty, ← e2]
    show memC _ _ _ _ .object _ _ _ _ = _
    unfold memC
    dsimp only
    rw [M.bind_eq (M.lift_eq e)]
    dsimp only
    rw [hpc]
    rfl

/-- The elements of a slice or array of length `N` are at `l`. -/
def ElemsAt (s : MSt) (t : Target) (e : Ty) (l : Spot) (N : Nat) : Prop :=
  t.ro = false ∧ ((t.ty = .arr N e ∧ t.place = .var l) ∨
    (t.ty = .slice e ∧ ∃ l0, t.place = .var l0 ∧ l0.base ≠ l.base ∧ l0.base < s.mem.next ∧ s.mem.get l0 = .slice l 0 N N))

theorem elems_step {rec : MRec} {s : MSt} {t : Target} {e : Ty} {l : Spot} {N n k i : Nat} (h : ElemsAt s t e l N) (hk : k < N) :
    elemsMem cfg B rec t N (n + 1) k i s =
      (do let idx ← rec i (varAt e (l.sub k N))
          elemsMem cfg B rec t N n (k + 1) idx : M Nat) s := by
  obtain ⟨ty, pl, ro⟩ := t
  obtain ⟨h0, h⟩ := h
  dsimp only at h0 h
  subst h0
  rw [elemsMem, if_pos hk]
  rcases h with ⟨rfl, rfl⟩ | ⟨rfl, l0, rfl, h1, h2, h3⟩
  · rfl
  · dsimp only
    rw [M.bind_eq (Target.read_var rfl s), h3]
    dsimp only
    rw [M.bind_eq (M.failIf_pass (by omega)), Nat.zero_add]
    rfl

theorem ElemsAt.after {own' : Own} {j : Nat} {s s' : MSt} {ρ ρ' : Nat → Option Nat} {Z : Spot → Prop} {M : Nat → Prop}
    {t : Target} {e : Ty} {l : Spot} {N : Nat} (hs : ElemsAt s t e l N) (h : MPost tc inp A B own' j Z M s s' ρ ρ')
    (hZ : ∀ z, Z z → z.base = l.base) : ElemsAt s' t e l N := by
  obtain ⟨h0, h1 | ⟨h1, l0, h2, h3, h4, h5⟩⟩ := hs
  · exact ⟨h0, .inl h1⟩
  · refine ⟨h0, .inr ⟨h1, l0, h2, h3, Nat.lt_of_lt_of_le h4 h.next, ?_⟩⟩
    rw [h.frame l0 h4 fun z hz => .base (by rw [hZ z hz]; exact h3)]
    exact h5

/-- What a run does on each kind of job. -/
def LRun (cfg : DCfg) (tc : TCfg) (inp : Heap) (A : Nat → Option Nat) (B : Bytes) (i : Nat) (own : Own) (j : Nat) (own' : Own) :
    LJob → Prop
  | .item v => ∀ ty, Fit tc inp A ty v → ∀ f s ρ l, B.length ≤ i + f → DInv A B own i s ρ → Clear s l → l.Ok →
      l.base < s.mem.next → s.mem.get l = .zero →
      ∃ s' ρ', decodeMem cfg tc B f i (varAt ty l) s = (.ok j, s') ∧
        MPost tc inp A B own' j (· = l) (fun _ => False) s s' ρ ρ' ∧
        Copied tc inp ρ' s'.mem s.mem.next s'.mem.next ty v (s'.mem.get l)
  | .elems vs => ∀ e, (∀ v ∈ vs, Fit tc inp A e v) → ∀ f s ρ t l N k, B.length ≤ i + f → DInv A B own i s ρ → l.Ok →
      l.base < s.mem.next → (∀ x, k ≤ x → x < N → Clear s (l.sub x N)) → (∀ x, k ≤ x → x < N → s.mem.get (l.sub x N) = .zero) →
      ElemsAt s t e l N → k + vs.length = N →
      ∃ s' ρ', elemsMem cfg B (decodeMem cfg tc B f) t N vs.length k i s = (.ok j, s') ∧
        MPost tc inp A B own' j (fun z => ∃ x, k ≤ x ∧ x < N ∧ z = l.sub x N) (fun _ => False) s s' ρ ρ' ∧
        ∀ (x : Nat) v, vs[x]? = some v → Copied tc inp ρ' s'.mem s.mem.next s'.mem.next e v (s'.mem.get (l.sub (k + x) N))
  | .pairs kvs => (kvs.map Prod.fst).Nodup →
      (∀ e, (∀ k v, (k, v) ∈ kvs → Fit tc inp A e v) → ∀ f s ρ l0 m, B.length ≤ i + f → DInv A B own i s ρ →
        l0.base < s.mem.next → m < s.mem.next → s.mem.get l0 = .map m →
        (∀ k, k ∈ kvs.map Prod.fst → mapLookup k (s.mem.maps m) = none) →
        ∃ s' ρ', entriesMem B (decodeMem cfg tc B f) e (varAt (.map e) l0) kvs.length i s = (.ok j, s') ∧
          MPost tc inp A B own' j (fun _ => False) (· = m) s s' ρ ρ' ∧
          (∀ k v, (k, v) ∈ kvs → ∃ w, mapLookup k (s'.mem.maps m) = some w ∧
            Copied tc inp ρ' s'.mem s.mem.next s'.mem.next e v w) ∧
          (∀ k, k ∉ kvs.map Prod.fst → mapLookup k (s'.mem.maps m) = mapLookup k (s.mem.maps m))) ∧
      (∀ (fs : List TField) ty, (∀ k v, (k, v) ∈ kvs → ∃ x g, FieldNamed fs k x ∧ fs[x]? = some g ∧ g.exported = true ∧
          Fit tc inp A g.ty v) → ∀ f s ρ l, B.length ≤ i + f → DInv A B own i s ρ → l.Ok → l.base < s.mem.next →
        (∀ k x, k ∈ kvs.map Prod.fst → FieldNamed fs k x → Clear s (l.sub x fs.length)) →
        (∀ k x, k ∈ kvs.map Prod.fst → FieldNamed fs k x → s.mem.get (l.sub x fs.length) = .zero) →
        ∃ s' ρ', fieldsMem cfg tc B (decodeMem cfg tc B f) fs (varAt ty l) kvs.length i s = (.ok j, s') ∧
          MPost tc inp A B own' j (fun z => ∃ k x, k ∈ kvs.map Prod.fst ∧ FieldNamed fs k x ∧ z = l.sub x fs.length)
            (fun _ => False) s s' ρ ρ' ∧
          ∀ k v x g, (k, v) ∈ kvs → FieldNamed fs k x → fs[x]? = some g →
            Copied tc inp ρ' s'.mem s.mem.next s'.mem.next g.ty v (s'.mem.get (l.sub x fs.length)))

theorem run_elemsCons {v : Val} {vs : List Val} {i k0 j : Nat} {own own1 own2 : Own}
    (h1 : LRun cfg tc inp A B i own k0 own1 (.item v)) (h2 : LRun cfg tc inp A B k0 own1 j own2 (.elems vs)) (hik : i ≤ k0) :
    LRun cfg tc inp A B i own j own2 (.elems (v :: vs)) := by
  intro e hv f s ρ t l N k hf hi hl hb hcl hz hs hN
  simp only [List.length_cons] at hN
  obtain ⟨s1, ρ1, e1, p1, c1⟩ := h1 e (hv v (by simp)) f s ρ (l.sub k N) hf hi (hcl k (Nat.le_refl _) (by omega))
    (hl.sub (by omega)) hb (hz k (Nat.le_refl _) (by omega))
  have hap : ∀ x, k + 1 ≤ x → ∀ z, z = l.sub k N → Separate (l.sub x N) z := by
    rintro x hx z rfl; exact .sub (by omega)
  obtain ⟨s2, ρ2, e2, p2, c2⟩ := h2 e (fun u hu => hv u (by simp [hu])) f s1 ρ1 t l N (k + 1) (by omega) p1.inv hl
    (Nat.lt_of_lt_of_le hb p1.next)
    (fun x h3 h4 => (hcl x (by omega) h4).after p1 hb (hap x h3))
    (fun x h3 h4 => by rw [p1.frame (l.sub x N) hb (hap x h3)]; exact hz x (by omega) h4)
    (hs.after p1 (by rintro z rfl; rfl)) (by omega)
  refine ⟨s2, ρ2, ?_, ?_, ?_⟩
  · rw [List.length_cons, elems_step hs (by omega), M.bind_eq e1]
    exact e2
  · refine (p1.comp p2 ?_ (fun _ h => h.elim)).weaken ?_ (fun _ h => .inl h)
    · rintro z ⟨x, _, _, rfl⟩; exact .inl hb
    · rintro z (rfl | ⟨x, h3, h4, rfl⟩)
      · exact .inl ⟨_, ⟨k, Nat.le_refl _, by omega, rfl⟩, .refl _⟩
      · exact .inl ⟨_, ⟨x, by omega, h4, rfl⟩, .refl _⟩
  · intro x u hx
    cases x with
    | zero =>
      cases hx
      have hfr := p2.frame (l.sub k N) (Nat.lt_of_lt_of_le hb p1.next) (by rintro z ⟨x, h3, _, rfl⟩; exact .sub (by omega))
      rw [Nat.add_zero, hfr]
      exact p2.stable (by rintro z ⟨x, _, _, rfl⟩; exact .inl hb) (fun _ h => h.elim) c1
    | succ x =>
      have := c2 x u (by simpa using hx)
      rw [show k + (x + 1) = k + 1 + x by omega]
      exact this.stable (fun _ _ _ => rfl) (fun _ _ _ => rfl) (fun _ _ h => h) p1.next (Nat.le_refl _)

theorem MPost.ofEqv {own' : Own} {j : Nat} {s s' : MSt} {d : DState} {ρ ρ' : Nat → Option Nat} {Z : Spot → Prop} {M : Nat → Prop}
    (h : MPost tc inp A B own' j Z M { s with d := d } s' ρ ρ') : MPost tc inp A B own' j Z M s s' ρ ρ' :=
  ⟨h.inv, h.mono, h.next, h.frame, h.maps, h.new, h.typed⟩

theorem FieldNamed.key {fs : List TField} {k k' : Bytes} {x : Nat} (h : FieldNamed fs k x) (h' : FieldNamed fs k' x) : k = k' := by
  obtain ⟨⟨f, h1, h2⟩, -⟩ := h
  obtain ⟨⟨f', h3, h4⟩, -⟩ := h'
  rw [h1] at h3; cases h3
  rw [h2] at h4; exact Option.some.inj h4

theorem FieldNamed.unique {fs : List TField} {k : Bytes} {x x' : Nat} (h : FieldNamed fs k x) (h' : FieldNamed fs k x') : x = x' :=
  FieldFor.unique (tc := ⟨fun _ => ⟨[], none⟩, id, fun _ => 0, fun _ => 0⟩) (.inl h) (.inl h')

theorem FieldNamed.lt {fs : List TField} {k : Bytes} {x : Nat} (h : FieldNamed fs k x) : x < fs.length := by
  obtain ⟨⟨f, h1, -⟩, -⟩ := h
  exact (List.getElem?_eq_some_iff.1 h1).1

theorem MPost.insert {own : Own} {i : Nat} {s : MSt} {ρ : Nat → Option Nat} (h : DInv A B own i s ρ) (m : Nat) (k : Bytes) (w : MVal) :
    MPost tc inp A B own i (fun _ => False) (· = m) s { s with mem := s.mem.insert m k w } ρ ρ where
  inv := ⟨h.depth, h.below, h.rlt, h.inj, h.dom, h.trk, h.tlt⟩
  mono _ _ h := h
  next := Nat.le_refl _
  frame _ _ _ := rfl
  maps x _ hx := by
    show (if x = m then _ else s.mem.maps x) = _
    rw [if_neg hx]
  new _ _ h := .inl h
  typed _ _ _ _ h _ := .inl h

theorem run_pairsCons {key : Bytes} {v : Val} {kvs : List (Bytes × Val)} {i x0 k0 j : Nat} {own own1 own2 : Own}
    (hB : B.length ≤ maxSize) (hk : Strish wrtDialect B false i key x0)
    (h1 : LRun cfg tc inp A B x0 own k0 own1 (.item v)) (h2 : LRun cfg tc inp A B k0 own1 j own2 (.pairs kvs)) (hik : x0 ≤ k0) :
    LRun cfg tc inp A B i own j own2 (.pairs ((key, v) :: kvs)) := by
  intro hnd
  simp only [List.map_cons, List.nodup_cons] at hnd
  obtain ⟨hnk, hnd⟩ := hnd
  obtain ⟨h2m, h2s⟩ := h2 hnd
  have hix := hk.lt
  have hlen : B.length < 2 ^ 63 := Nat.lt_of_le_of_lt hB (by decide)
  refine ⟨?_, ?_⟩
  · intro e hv f s ρ l0 m hf hi hl0 hm hl0m hno
    obtain ⟨d', e0, hd⟩ := stringish_comp hlen (hk.up wrtDialect_le_go) s.d hi.cd
    have hw : Wrote s.mem (s.mem.new .zero) ⟨s.mem.next, []⟩ :=
      ⟨Nat.le_succ _, fun z hz _ => Mem.get_new _ _ hz, fun _ _ => rfl⟩
    have hi1 : DInv A B own x0 { s with d := d', mem := s.mem.new .zero } ρ :=
      (hi.wrote (s' := { s with d := d', mem := s.mem.new .zero }) hw (hi.clear (Nat.le_refl _)) rfl hd).advance (by omega)
    obtain ⟨s2, ρ2, e1, p1, c1⟩ := h1 e (hv key v (by simp)) f _ ρ ⟨s.mem.next, []⟩ (by omega) hi1
      (fun o x t z ho hp => .base (by have := hi.tlt o x t z ho hp; show z.base ≠ s.mem.next; omega)) (.nil _)
      (Nat.lt_succ_self _) (Mem.get_new_here _ _)
    have p1' : MPost tc inp A B own1 k0 (fun _ => False) (· = m) s s2 ρ ρ2 :=
      (MPost.pre (s := s) (ρ := ρ) (M' := fun _ => False) hw p1 (fun o x t z ho _ => .inl ho) (fun _ _ h => h) (fun _ _ h => .inl h) (fun _ h => .inl h)).weaken
        (by rintro z (rfl | rfl) <;> exact .inr (Nat.le_refl _)) (fun _ h => h.elim)
    have hm2 : s2.mem.maps m = s.mem.maps m := p1.maps m (Nat.lt_succ_of_lt hm) (fun h => h)
    have p2 := MPost.insert (tc := tc) (inp := inp) p1.inv m key (s2.mem.get ⟨s.mem.next, []⟩)
    have hget : s2.mem.get l0 = .map m := by rw [p1'.frame l0 hl0 (fun _ h => h.elim)]; exact hl0m
    have hins : ∀ k', mapLookup k' ((s2.mem.insert m key (s2.mem.get ⟨s.mem.next, []⟩)).maps m) =
        if k' = key then some (s2.mem.get ⟨s.mem.next, []⟩) else mapLookup k' (s.mem.maps m) := by
      intro k'
      show mapLookup k' (if m = m then mapInsert key _ (s2.mem.maps m) else s2.mem.maps m) = _
      rw [if_pos rfl, mapLookup_insert, hm2]
    obtain ⟨s4, ρ4, e3, p3, c3, n3⟩ := h2m e (fun k u hu => hv k u (by simp [hu])) f _ ρ2 l0 m (by omega) p2.inv
      (Nat.lt_of_lt_of_le hl0 p1'.next) (Nat.lt_of_lt_of_le hm p1'.next) hget (fun k hkm => by
        rw [hins, if_neg (by intro h; rw [h] at hkm; exact hnk hkm)]
        exact hno k (by simp only [List.map_cons, List.mem_cons]; exact .inr hkm))
    have hz0 : ∀ (z : Spot), False → z.base < s.mem.next ∨ s2.mem.next ≤ z.base := fun _ h => h.elim
    refine ⟨s4, ρ4, ?_, ?_, ?_, ?_⟩
    · rw [List.length_cons, entriesMem, M.bind_eq (M.lift_eq e0)]
      dsimp only
      have hlk : (varAt (.map e) l0).lookup key { s with d := d' } = (.ok none, { s with d := d' }) := by
        unfold Target.lookup
        rw [M.bind_eq (Target.read_var rfl _)]
        show (match s.mem.get l0 with | .map m => _ | _ => _ : M (Option MVal)) _ = _
        rw [hl0m]
        show (Except.ok (mapLookup key (s.mem.maps m)), _) = _
        rw [hno key (by simp)]
      rw [M.bind_eq hlk]
      dsimp only
      rw [M.bind_eq (show newVar .zero { s with d := d' } = (.ok ⟨s.mem.next, []⟩, { s with d := d', mem := s.mem.new .zero }) from rfl)]
      rw [M.bind_eq (show decodeMem cfg tc B f x0 { ty := e, place := .var ⟨s.mem.next, []⟩ } _ = _ from e1)]
      rw [M.bind_eq (Target.read_var rfl _)]
      have hin : (varAt (.map e) l0).insert key (s2.mem.get ⟨s.mem.next, []⟩) s2 =
          (.ok (), { s2 with mem := s2.mem.insert m key (s2.mem.get ⟨s.mem.next, []⟩) }) := by
        unfold Target.insert
        rw [M.bind_eq (M.failIf_pass (by simp [varAt])), M.bind_eq (Target.read_var rfl _), hget]
      rw [M.bind_eq hin]
      exact e3
    · exact ((p1'.comp p2 (fun _ h => h.elim) (by rintro x rfl; exact hm)).comp p3 (fun _ h => h.elim)
        (by rintro x rfl; exact hm)).weaken (by rintro z ((h | h) | h) <;> exact h.elim) (fun _ h => .inl h)
    · intro k u hku
      rcases List.mem_cons.1 hku with h | h
      · cases h
        refine ⟨s2.mem.get ⟨s.mem.next, []⟩, ?_, ?_⟩
        · rw [n3 key hnk]
          show mapLookup key ((s2.mem.insert m key (s2.mem.get ⟨s.mem.next, []⟩)).maps m) = _
          rw [hins, if_pos rfl]
        · have c1' : Copied tc inp ρ2 s2.mem s.mem.next s2.mem.next e v (s2.mem.get ⟨s.mem.next, []⟩) :=
            c1.stable (fun _ _ _ => rfl) (fun _ _ _ => rfl) (fun _ _ h => h) (Nat.le_succ _) (Nat.le_refl _)
          exact p3.stable (fun _ h => h.elim) (by rintro x rfl; exact hm)
            (p2.stable (fun _ h => h.elim) (by rintro x rfl; exact hm) c1')
      · obtain ⟨w, hw, hc⟩ := c3 k u h
        exact ⟨w, hw, hc.stable (fun _ _ _ => rfl) (fun _ _ _ => rfl) (fun _ _ h => h) p1'.next (Nat.le_refl _)⟩
    · intro k hk
      simp only [List.map_cons, List.mem_cons, not_or] at hk
      rw [n3 k hk.2]
      show mapLookup k ((s2.mem.insert m key (s2.mem.get ⟨s.mem.next, []⟩)).maps m) = _
      rw [hins, if_neg hk.1]
  · intro fs ty hv f s ρ l hf hi hl hb hcl hz
    obtain ⟨d', e0, hd⟩ := stringish_comp hlen (hk.up wrtDialect_le_go) s.d hi.cd
    obtain ⟨x, g, hfn, hg, hex, hfit⟩ := hv key v (by simp)
    obtain ⟨s1, ρ1, e1, p1, c1⟩ := h1 g.ty hfit f { s with d := d' } ρ (l.sub x fs.length) (by omega)
      ((hi.eqv hd).advance (by omega)) (hcl key x (by simp) hfn) (hl.sub hfn.lt) hb (hz key x (by simp) hfn)
    have p1 := p1.ofEqv
    have hap : ∀ k x', k ∈ kvs.map Prod.fst → FieldNamed fs k x' → x' ≠ x := by
      rintro k x' hk hx' rfl
      exact hnk ((hfn.key hx').symm ▸ hk)
    obtain ⟨s2, ρ2, e2, p2, c2⟩ := h2s fs ty (fun k u hu => hv k u (by simp [hu])) f s1 ρ1 l (by omega) p1.inv hl
      (Nat.lt_of_lt_of_le hb p1.next)
      (fun k x' h3 h4 => (hcl k x' (by simp only [List.map_cons, List.mem_cons]; exact .inr h3) h4).after p1 hb
        (by rintro z rfl; exact .sub (hap k x' h3 h4)))
      (fun k x' h3 h4 => by
        rw [p1.frame (l.sub x' fs.length) hb (by rintro z rfl; exact .sub (hap k x' h3 h4))]
        exact hz k x' (by simp only [List.map_cons, List.mem_cons]; exact .inr h3) h4)
    have hZ2 : ∀ z : Spot, (∃ k x, k ∈ kvs.map Prod.fst ∧ FieldNamed fs k x ∧ z = l.sub x fs.length) →
        z.base < s.mem.next ∨ s1.mem.next ≤ z.base := by
      rintro z ⟨_, x, _, _, rfl⟩; exact .inl hb
    refine ⟨s2, ρ2, ?_, ?_, ?_⟩
    · rw [List.length_cons, fieldsMem, M.bind_eq (M.lift_eq e0)]
      dsimp only
      rw [findField_some (.inl hfn)]
      dsimp only
      rw [hg]
      dsimp only
      rw [hex]
      rw [M.bind_eq (show decodeMem cfg tc B f x0 ((varAt ty l).part x fs.length g.ty true) _ = _ from e1)]
      exact e2
    · refine (p1.comp p2 hZ2 (fun _ h => h.elim)).weaken ?_ (fun _ h => .inl h)
      rintro z (rfl | ⟨k, x', h3, h4, rfl⟩)
      · exact .inl ⟨_, ⟨key, x, by simp, hfn, rfl⟩, .refl _⟩
      · exact .inl ⟨_, ⟨k, x', by simp only [List.map_cons, List.mem_cons]; exact .inr h3, h4, rfl⟩, .refl _⟩
    · intro k u x' g' hku hfn' hg'
      rcases List.mem_cons.1 hku with h | h
      · cases h
        cases hfn.unique hfn'
        rw [hg] at hg'; cases hg'
        rw [p2.frame (l.sub x fs.length) (Nat.lt_of_lt_of_le hb p1.next) (by
          rintro z ⟨k, x', h3, h4, rfl⟩; exact .sub (Ne.symm (hap k x' h3 h4)))]
        exact p2.stable hZ2 (fun _ h => h.elim) c1
      · exact (c2 k u x' g' h hfn' hg').stable (fun _ _ _ => rfl) (fun _ _ _ => rfl) (fun _ _ h => h) p1.next (Nat.le_refl _)

theorem array_head {pc : Bool} {i n p f : Nat} {t : Target} (s : MSt) (hB : B.length ≤ maxSize)
    (h : Span B i ((if pc then [typeREFN] else []) ++ typeARRAY :: varint n) p) (hn : p + n ≤ B.length)
    (hty : t.ty ≠ .iface) (hf : B.length ≤ i + f) :
    ∃ f', decodeMem cfg tc B f i t s = arrayMem cfg B (decodeMem cfg tc B f') p n t s ∧ B.length ≤ p + f' := by
  obtain ⟨f', k, e, h1, h2, h3⟩ := opt_refn (cfg := cfg) (tc := tc) s h (by decide) (by decide) hty hf
  obtain ⟨e2, hj⟩ := varint_at s.d h1 (by omega)
  refine ⟨f', ?_, by have := h1.le; omega⟩
  rw [e]
  show memC _ _ _ _ .array _ _ _ _ = _
  unfold memC
  dsimp only
  rw [M.bind_eq (M.lift_eq e2)]
  dsimp only
  rw [hj]

theorem run_fields (hset : Settable tc) {id fa : Nat} {name : Bytes} {kvs : List (Bytes × Val)} {p j : Nat} {own own' : Own}
    (hfit : Fit tc inp A (.strct id) (.strct name fa)) (hent : Entries (inp.fieldsAt fa) kvs)
    (ih : LRun cfg tc inp A B p own j own' (.pairs kvs)) {f : Nat} {s : MSt} {ρ : Nat → Option Nat} {l : Spot} (ty : Ty)
    (hf : B.length ≤ p + f) (hi : DInv A B own p s ρ) (hcl : Clear s l) (hl : l.Ok) (hb : l.base < s.mem.next)
    (hz : s.mem.get l = .zero) :
    ∃ s' ρ', fieldsMem cfg tc B (decodeMem cfg tc B f) (tc.types id).fields (varAt ty l) kvs.length p s = (.ok j, s') ∧
      MPost tc inp A B own' j (· = l) (fun _ => False) s s' ρ ρ' ∧
      Copied tc inp ρ' s'.mem s.mem.next s'.mem.next (.strct id) (.strct name fa) (s'.mem.get l) := by
  cases hfit with
  | strct hlen hn hel =>
    obtain ⟨hnd, hkeys, hvals⟩ := hent
    obtain ⟨s', ρ', e, p1, c1⟩ := (ih hnd).2 (tc.types id).fields ty (fun k v hkv => by
      obtain ⟨x, fd, g, h1, h2, h3, h4⟩ := fieldNamed_of_entry hlen hn (hvals k v hkv)
      refine ⟨x, g, h3, h2, hset id g (List.mem_of_getElem? h2) ?_, h4 ▸ hel x fd g k h1 h2 h3⟩
      obtain ⟨⟨g', h5, h6⟩, -⟩ := h3
      rw [h2] at h5; cases h5
      rw [h6]; simp) f s ρ l hf hi hl hb (fun _ _ _ _ => hcl.sub _ _)
      (fun _ _ _ _ => by rw [Mem.get_sub, hz, MVal.part_zero])
    refine ⟨s', ρ', e, p1.weaken ?_ (fun _ h => .inl h), .strct fun x fd g k h1 h2 h3 => ?_⟩
    · rintro z ⟨_, x, _, _, rfl⟩; exact .inl ⟨l, rfl, .sub _ _ _⟩
    · have hlast : lastLookup k (fieldEntries (inp.fieldsAt fa)) = some fd.val := by
        obtain ⟨⟨g', h5, h6⟩, h7⟩ := h3
        rw [h2] at h5; cases h5
        refine fieldEntries_last h1 (by rw [effName_key (hn x fd g h1 h2)]; exact h6) fun y f' hy hf' hk => ?_
        have hlt := (List.getElem?_eq_some_iff.1 hf').1
        have hg' : (tc.types id).fields[y]? = some ((tc.types id).fields[y]'(by omega)) := List.getElem?_eq_getElem (by omega)
        exact h7 y _ hy hg' (by rw [← effName_key (hn y f' _ hf' hg')]; exact hk)
      have hmem : k ∈ kvs.map Prod.fst := (hkeys k).2 (List.mem_map.2 ⟨_, lastLookup_mem hlast, rfl⟩)
      obtain ⟨⟨k', v⟩, hkv, rfl⟩ := List.mem_map.1 hmem
      have := hvals k' v hkv
      rw [hlast] at this
      cases this
      rw [← Mem.get_sub]
      exact c1 k' _ x g hkv h3 h2

theorem track_state (i : Nat) (t : Target) (s : MSt) : ∃ d x, (trackMem i t s).2 =
      { d := d, mem := s.mem, typed := fun o => if o = i then some (x, t) else s.typed o } ∧
    d.copyDepth = s.d.copyDepth ∧ d.tracked = (fun o => if o = i then some (.cell x) else s.d.tracked o) :=
  ⟨_, _, rfl, rfl, rfl⟩

theorem run_ptr (hB : B.length ≤ maxSize) (hpc : cfg.perlCompat = false) (hset : Settable tc) (hA : FitsAt tc inp A) {pc : Bool}
    {a fa n p : Nat} {name : Bytes} {b : UInt8} {kvs : List (Bytes × Val)} {i j : Nat} {own own' : Own}
    (hb : B[i]? = some b) (hb2 : b.toNat % 128 = 0x28) (hno : ∀ o, own o ≠ some a)
    (hcell : inp.cellAt a = .strct name fa) (hh : StrctHead pc B name n (i + 1) p) (hn : kvs.length = n)
    (hnB : p + 2 * n ≤ B.length) (hent : Entries (inp.fieldsAt fa) kvs)
    (ih : LRun cfg tc inp A B p (own.put i a) j own' (.pairs kvs)) :
    LRun cfg tc inp A B i own j own' (.item (.ptr false a)) := by
  intro ty hfit f s ρ l hf hi hcl hl hlb hz
  cases hfit with
  | slice h => rcases h with h | h <;> cases h
  | map h => rcases h with h | h <;> cases h
  | @ptr id _ ha =>
  have hlt := (List.getElem?_eq_some_iff.1 hb).1
  have hip := hh.lt
  cases f with
  | zero => omega
  | succ f =>
  -- the state after the REFN tag
  obtain ⟨s1, hs1, hm1, hc1, htr1, hty1⟩ : ∃ s1, (if 128 ≤ b.toNat then (trackMem i (varAt (.ptr (.strct id)) l) s).2 else s) = s1 ∧
      s1.mem = s.mem ∧ s1.d.copyDepth = 0 ∧
      (128 ≤ b.toNat → ∃ x, s1.typed i = some (x, varAt (.ptr (.strct id)) l) ∧ s1.d.tracked i = some (.cell x)) ∧
      ((∀ o, o ≠ i → s1.typed o = s.typed o ∧ s1.d.tracked o = s.d.tracked o) ∧
        ∀ x t, s1.typed i = some (x, t) → s.typed i = some (x, t) ∨ t = varAt (.ptr (.strct id)) l) := by
    by_cases hfl : 128 ≤ b.toNat
    · obtain ⟨d, x, e1, e2, e3⟩ := track_state i (varAt (.ptr (.strct id)) l) s
      refine ⟨_, rfl, ?_⟩
      rw [if_pos hfl, e1]
      refine ⟨rfl, e2.trans hi.depth, fun _ => ⟨x, if_pos rfl, by rw [e3]; exact if_pos rfl⟩, fun o ho => ?_, fun y t h => ?_⟩
      · exact ⟨if_neg ho, by rw [e3]; exact if_neg ho⟩
      · have : (some (x, varAt (.ptr (.strct id)) l)) = some (y, t) := by rw [← h]; exact (if_pos rfl).symm
        cases this
        exact .inr rfl
    · refine ⟨s, if_neg hfl, rfl, hi.depth, fun h => absurd h hfl, fun _ _ => ⟨rfl, rfl⟩, fun _ _ h => .inl h⟩
  have hcd1 : s1.d.cd = false := by unfold DState.cd; rw [hc1]; rfl
  obtain ⟨f', d', e1, hd, hf'⟩ := strct_head (cfg := cfg) (tc := tc) (f := f) (t := varAt (.ptr (.strct id)) l) s1 hB hpc hh hnB
    (by simp [varAt]) (by omega) hcd1
  -- the state after the allocation
  let s2 : MSt := { s1 with d := d', mem := ((s1.mem.new .zero).put l (.ptr ⟨s1.mem.next, []⟩)) }
  have hw : Wrote s.mem s2.mem l := by
    show Wrote s.mem ((s1.mem.new .zero).put l (.ptr ⟨s1.mem.next, []⟩)) l
    rw [hm1]; exact .newPut _ hl _ _
  have hnx : s2.mem.next = s.mem.next + 1 := by show s1.mem.next + 1 = _; rw [hm1]
  have hty2 : ∀ o x t z, s2.typed o = some (x, t) → t.place = .var z → s.typed o = some (x, t) ∨ z = l := by
    intro o x t z ho hp
    by_cases hoi : o = i
    · subst hoi
      rcases hty1.2 x t ho with h | h
      · exact .inl h
      · subst h; cases hp; exact .inr rfl
    · rw [← (hty1.1 o hoi).1]; exact .inl ho
  have hnoρ : ∀ c, ρ a ≠ some c := by
    intro c h
    obtain ⟨o, ho⟩ := hi.dom a c h
    exact hno o ho
  let ρ1 : Nat → Option Nat := fun x => if x = a then some s.mem.next else ρ x
  have hρa : ρ1 a = some s.mem.next := if_pos rfl
  have hρ1 : ∀ x c, ρ x = some c → ρ1 x = some c := by
    intro x c h
    show (if x = a then _ else ρ x) = _
    rw [if_neg (by rintro rfl; exact hnoρ c h)]; exact h
  have hρ1' : ∀ x c, ρ1 x = some c → (x = a ∧ c = s.mem.next) ∨ ρ x = some c := by
    intro x c h
    by_cases hx : x = a
    · subst hx; rw [hρa] at h; cases h; exact .inl ⟨rfl, rfl⟩
    · have : (if x = a then some s.mem.next else ρ x) = some c := h
      rw [if_neg hx] at this; exact .inr this
  have hgl : s2.mem.get l = .ptr ⟨s.mem.next, []⟩ := by
    show ((s1.mem.new .zero).put l (.ptr ⟨s1.mem.next, []⟩)).get l = _
    rw [Mem.get_put _ hl, hm1]
  have hi2 : DInv A B (own.put i a) p s2 ρ1 :=
    { depth := hd.copyDepth.trans hc1
      below := fun o x h => by
        unfold Own.put at h
        by_cases ho : o = i
        · omega
        · rw [if_neg ho] at h; have := hi.below o x h; omega
      rlt := fun x c h => by
        rcases hρ1' x c h with ⟨_, rfl⟩ | h
        · omega
        · have := hi.rlt x c h; omega
      inj := fun x y c h1 h2 => by
        rcases hρ1' x c h1 with ⟨q1, q2⟩ | q1 <;> rcases hρ1' y c h2 with ⟨q3, q4⟩ | q3
        · rw [q1, q3]
        · have := hi.rlt y _ q3; omega
        · have := hi.rlt x _ q1; omega
        · exact hi.inj x y c q1 q3
      dom := fun x c h => by
        unfold Own.put
        rcases hρ1' x c h with ⟨rfl, _⟩ | h
        · exact ⟨i, if_pos rfl⟩
        · obtain ⟨o, ho⟩ := hi.dom x c h
          exact ⟨o, by rw [if_neg (by have := hi.below o x ho; omega)]; exact ho⟩
      trk := fun o x byte ho hby hfl => by
        unfold Own.put at ho
        by_cases hoi : o = i
        · subst hoi
          rw [if_pos rfl] at ho; cases ho
          rw [hb] at hby; cases hby
          obtain ⟨y, h1, h2⟩ := htr1 hfl
          exact ⟨y, l, s.mem.next, id, h1, by show d'.tracked o = _; rw [hd.tracked]; exact h2, hgl, hρa, ha⟩
        · rw [if_neg hoi] at ho
          obtain ⟨y, z, c, id', h1, h2, h3, h4, h5⟩ := hi.trk o x byte ho hby hfl
          refine ⟨y, z, c, id', by rw [← h1]; exact (hty1.1 o hoi).1, ?_, ?_, hρ1 x c h4, h5⟩
          · show d'.tracked o = _; rw [hd.tracked, (hty1.1 o hoi).2]; exact h2
          · rw [hw.frame z (hi.tlt o y _ z h1 rfl) (hcl o y _ z h1 rfl)]; exact h3
      tlt := fun o x t z ho hp => by
        rcases hty2 o x t z ho hp with h | rfl
        · have := hi.tlt o x t z h hp; omega
        · omega }
  have hap : ∀ z : Spot, z.base < s.mem.next → Separate z ⟨s.mem.next, []⟩ := fun z hz => .base (by
    show z.base ≠ s.mem.next; omega)
  obtain ⟨s', ρ', e2, p2, c2⟩ := run_fields (f := f') hset (hcell ▸ hA a id ha) hent ih (s := s2) (ρ := ρ1) (l := ⟨s.mem.next, []⟩)
    (.strct id) hf' hi2
    (fun o x t z ho hp => by
      rcases hty2 o x t z ho hp with h | rfl
      · exact hap z (hi.tlt o x t z h hp)
      · exact hap z hlb) (.nil _) (by show s.mem.next < _; omega) (by
      show ((s1.mem.new .zero).put l (.ptr ⟨s1.mem.next, []⟩)).get _ = _
      rw [Mem.get_put_apart _ hl (hap l hlb).symm, ← hm1, Mem.get_new_here])
  have hgl' : s'.mem.get l = .ptr ⟨s.mem.next, []⟩ := by
    rw [p2.frame l (by omega) (by rintro z rfl; exact hap l hlb)]; exact hgl
  refine ⟨s', ρ', ?_, ?_, ?_⟩
  · rw [mem_step s hb (by omega) (by simp [varAt]), hb2, hs1]
    show decodeMem cfg tc B f (i + 1) _ s1 = _
    rw [e1]
    show (do
      let t' ← (varAt (.ptr (.strct id)) l).deref (.strct id)
      hashMem cfg tc B (decodeMem cfg tc B f') p n (.strct id) t' : M Nat) _ = _
    have hdr : (varAt (.ptr (.strct id)) l).deref (.strct id) { s1 with d := d' } = (.ok (varAt (.strct id) ⟨s.mem.next, []⟩), s2) := by
      unfold Target.deref
      rw [M.bind_eq (Target.read_var rfl _)]
      show (match s1.mem.get l with | .ptr l => _ | _ => _ : M Target) { s1 with d := d' } = _
      rw [show s1.mem.get l = .zero by rw [hm1]; exact hz]
      dsimp only
      rw [M.bind_eq (show newVar .zero { s1 with d := d' } = (.ok ⟨s1.mem.next, []⟩, { s1 with d := d', mem := s1.mem.new .zero }) from rfl),
        M.bind_eq (Target.write_var rfl rfl _ _), hm1]
      show ((.ok (varAt (.strct id) ⟨s.mem.next, []⟩) : Except Exn Target), _) = _
      simp only [s2, hm1]
    rw [M.bind_eq hdr, ← hn]
    exact e2
  · refine (MPost.pre (s := s) (ρ := ρ) (M' := fun _ => False) hw p2 hty2 hρ1 (fun x c h => ?_) (fun _ h => .inl h)).weaken ?_ (fun _ h => .inl h)
    · rcases hρ1' x c h with ⟨rfl, rfl⟩ | h
      · refine .inr ⟨Nat.le_refl _, id, ha, ?_⟩
        rw [hcell]
        exact c2.stable (fun _ _ _ => rfl) (fun _ _ _ => rfl) (fun _ _ h => h) (by omega) (Nat.le_refl _)
      · exact .inl h
    · rintro z (rfl | rfl)
      · exact .inl ⟨z, rfl, .refl _⟩
      · exact .inr (Nat.le_refl _)
  · rw [hgl']
    exact .ptr (p2.mono a _ hρa)

end
end Sereal
