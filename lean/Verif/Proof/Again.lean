import Verif.Spec.Again
import Verif.Proof.Comp
import Verif.Proof.Arrives
import Verif.Proof.Writable
import Verif.Proof.ApiDoc
/-
Decoded values that are marshalled again.
-/
namespace Sereal

/-- As `Fits`, also behind REFP and ALIAS. -/
inductive Bounded (n : Nat) : Tree → Prop
  | undef : Bounded n .undef
  | cundef : Bounded n .cundef
  | bool {b} : Bounded n (.bool b)
  | int {i} : Bounded n (.int i)
  | f32 {u} : Bounded n (.f32 u)
  | f64 {u} : Bounded n (.f64 u)
  | str {s} : s.length ≤ n → Bounded n (.str s)
  | bin {s} : s.length ≤ n → Bounded n (.bin s)
  | arr {ts} : ts.length ≤ n → (∀ t ∈ ts, Bounded n t) → Bounded n (.arr ts)
  | map {kvs} : kvs.length ≤ n → (∀ k t, (k, t) ∈ kvs → k.length ≤ n) →
      (∀ k t, (k, t) ∈ kvs → Bounded n t) → Bounded n (.map kvs)
  | ref {t} : Bounded n t → Bounded n (.ref t)
  | refp {t} : Bounded n t → Bounded n (.refp t)
  | alias {t} : Bounded n t → Bounded n (.alias t)
  | openRef : Bounded n .openRef
  | weak {t} : Bounded n t → Bounded n (.weak t)
  | obj {cls t} : cls.length ≤ n → Bounded n t → Bounded n (.obj cls t)
  | regexp {p m} : p.length ≤ n → m.length ≤ n → Bounded n (.regexp p m)
  | frz {cls t} : cls.length ≤ n → Bounded n t → Bounded n (.frz cls t)

def OutBounded : Out → Prop
  | .tree t => Bounded maxSize t
  | .trees ts => ∀ t ∈ ts, Bounded maxSize t
  | .pairs kvs => (∀ k t, (k, t) ∈ kvs → k.length ≤ maxSize) ∧ ∀ k t, (k, t) ∈ kvs → Bounded maxSize t

/-- The numbers of elements and bytes that fit a tag byte. -/
def TagC.small : TagC → Bool
  | .arrayref n => n < 16
  | .hashref n => n < 16
  | .short n => n < 32
  | _ => true

theorem classify_small : ∀ b < 128, (classify b).small = true := by decide

theorem tag_small (b : UInt8) : (classify (b.toNat % 128)).small = true := classify_small _ (Nat.mod_lt _ (by decide))

theorem Lit.bounded {d : Dialect} {buf : Bytes} {i j : Nat} {s : Bytes} (h : Lit d buf i s j) : s.length ≤ maxSize := by
  cases h with
  | long _ _ _ h _ e => omega
  | short _ hc _ e =>
    have := tag_small ‹UInt8›
    rw [hc] at this
    have : _ < 32 := of_decide_eq_true this
    unfold maxSize; omega

theorem Strish.bounded {d : Dialect} {buf : Bytes} {cd : Bool} {i j : Nat} {s : Bytes} (h : Strish d buf cd i s j) :
    s.length ≤ maxSize := by
  cases h with
  | lit h => exact h.bounded
  | copy _ _ _ _ _ h => exact h.bounded

/-- Sizes in the trees of completed items. -/
def SeenBounded (T : Seen) : Prop := ∀ o t, T o = some (some t) → Bounded maxSize t

def Job.small : Job → Bool
  | .body c => c.small
  | _ => true

def LenIs : Job → Out → Prop
  | .items n, .trees ts => ts.length = n
  | .pairs n, .pairs kvs => kvs.length = n
  | _, _ => True

theorem G.bounded {d : Dialect} {buf : Bytes} {cd : Bool} {job : Job} {i j : Nat} {T T' : Seen} {out : Out}
    (h : G d buf cd job i T out j T') (hj : job.small = true) (hT : SeenBounded T) :
    OutBounded out ∧ LenIs job out ∧ SeenBounded T' := by
  induction h with
  | @plain _ _ _ b _ _ _ _ _ hb _ ih =>
    have := tag_small b
    rw [Nat.mod_eq_of_lt hb] at this
    obtain ⟨h1, _, h2⟩ := ih this hT
    exact ⟨h1, trivial, h2⟩
  | @tracked _ _ _ b T _ _ T' _ hb _ ih =>
    have := tag_small b
    have hlt := b.toNat_lt
    rw [show b.toNat % 128 = b.toNat - 128 by omega] at this
    obtain ⟨h1, _, h2⟩ := ih this (by
      intro o t ho
      unfold Seen.put at ho
      split at ho
      · cases ho
      · exact hT o t ho)
    refine ⟨h1, trivial, ?_⟩
    intro o t ho
    unfold Seen.close at ho
    split at ho
    · split at ho
      · cases ho; exact h1
      · cases ho
    · exact h2 o t ho
  | int => exact ⟨.int, trivial, hT⟩
  | varint => exact ⟨.int, trivial, hT⟩
  | zigzag => exact ⟨.int, trivial, hT⟩
  | float => exact ⟨.f32, trivial, hT⟩
  | double => exact ⟨.f64, trivial, hT⟩
  | true_ => exact ⟨.bool, trivial, hT⟩
  | false_ => exact ⟨.bool, trivial, hT⟩
  | undef => exact ⟨.undef, trivial, hT⟩
  | cundef => exact ⟨.cundef, trivial, hT⟩
  | binary _ h _ e => exact ⟨.bin (by omega), trivial, hT⟩
  | strUtf8 _ h _ e => exact ⟨.str (by omega), trivial, hT⟩
  | short _ e =>
    have : _ < 32 := of_decide_eq_true hj
    exact ⟨.bin (by unfold maxSize; omega), trivial, hT⟩
  | hash _ hn _ ih =>
    obtain ⟨h1, h2, h3⟩ := ih rfl hT
    have h2 : _ = _ := h2
    exact ⟨.map (by omega) h1.1 h1.2, trivial, h3⟩
  | hashref _ ih =>
    obtain ⟨h1, h2, h3⟩ := ih rfl hT
    have h2 : _ = _ := h2
    have : _ < 16 := of_decide_eq_true hj
    exact ⟨.ref (.map (by unfold maxSize; omega) h1.1 h1.2), trivial, h3⟩
  | array _ hn _ ih =>
    obtain ⟨h1, h2, h3⟩ := ih rfl hT
    have h2 : _ = _ := h2
    exact ⟨.arr (by omega) h1, trivial, h3⟩
  | arrayref _ ih =>
    obtain ⟨h1, h2, h3⟩ := ih rfl hT
    have h2 : _ = _ := h2
    have : _ < 16 := of_decide_eq_true hj
    exact ⟨.ref (.arr (by unfold maxSize; omega) h1), trivial, h3⟩
  | refn _ ih =>
    obtain ⟨h1, _, h3⟩ := ih rfl hT
    exact ⟨.ref h1, trivial, h3⟩
  | refp _ _ h => exact ⟨.refp (hT _ _ h), trivial, hT⟩
  | refpOpen => exact ⟨.openRef, trivial, hT⟩
  | alias _ _ h => exact ⟨.alias (hT _ _ h), trivial, hT⟩
  | aliasOpen => exact ⟨.openRef, trivial, hT⟩
  | copy _ _ _ _ ih =>
    obtain ⟨h1, _, h3⟩ := ih rfl hT
    exact ⟨h1, trivial, h3⟩
  | weaken _ ih =>
    obtain ⟨h1, _, h3⟩ := ih rfl hT
    exact ⟨.weak h1, trivial, h3⟩
  | regexp h1 h2 => exact ⟨.regexp h1.bounded h2.bounded, trivial, hT⟩
  | object hc _ ih =>
    obtain ⟨h1, _, h3⟩ := ih rfl hT
    exact ⟨.obj hc.bounded h1, trivial, h3⟩
  | objectv _ _ hc _ ih =>
    obtain ⟨h1, _, h3⟩ := ih rfl hT
    exact ⟨.obj hc.bounded h1, trivial, h3⟩
  | freeze hc _ _ ih =>
    obtain ⟨h1, _, h3⟩ := ih rfl hT
    exact ⟨.frz hc.bounded h1, trivial, h3⟩
  | freezev _ _ hc _ _ ih =>
    obtain ⟨h1, _, h3⟩ := ih rfl hT
    exact ⟨.frz hc.bounded h1, trivial, h3⟩
  | itemsNil => exact ⟨fun t h => (by cases h), rfl, hT⟩
  | itemsCons _ _ ih1 ih2 =>
    obtain ⟨h1, _, h3⟩ := ih1 rfl hT
    obtain ⟨g1, g2, g3⟩ := ih2 rfl h3
    refine ⟨?_, congrArg (· + 1) g2, g3⟩
    intro t ht
    rcases List.mem_cons.1 ht with rfl | ht
    · exact h1
    · exact g1 t ht
  | pairsNil => exact ⟨⟨fun k t h => (by cases h), fun k t h => (by cases h)⟩, rfl, hT⟩
  | pairsCons hk _ _ ih1 ih2 =>
    obtain ⟨h1, _, h3⟩ := ih1 rfl hT
    obtain ⟨g1, g2, g3⟩ := ih2 rfl h3
    refine ⟨⟨?_, ?_⟩, congrArg (· + 1) g2, g3⟩
    · intro k t ht
      rcases List.mem_cons.1 ht with e | ht
      · cases e; exact hk.bounded
      · exact g1.1 k t ht
    · intro k t ht
      rcases List.mem_cons.1 ht with e | ht
      · cases e; exact h1
      · exact g1.2 k t ht

theorem Denotes.bounded {d : Dialect} {buf : Bytes} {i j : Nat} {t : Tree} (h : Denotes d buf i t j) : Bounded maxSize t := by
  obtain ⟨T, g⟩ := h
  exact (g.bounded rfl (fun o t h => by cases h)).1

variable {w : ViewCfg} {h h' : Heap}

theorem mapAt_mp {h : Heap} {m : Nat} {es : List (Bytes × Val)} (hm : h.mem m = .mp es) : h.mapAt m = es := by
  unfold Heap.mapAt; rw [hm]

/-- What an interface{} holds is never a Perl struct itself, only a pointer to one. -/
theorem Shows.not_perl {v : Val} {t : Tree} {n : Nat} (hs : Shows w h v t) (ht : Storable w n t) : isPerlStruct v = false := by
  induction hs generalizing n with
  | ref h0 _ ih =>
    cases ht with
    | ref _ h => exact ih h
    | refP h1 _ => exact not_both h0 h1
  | weak h0 _ ih =>
    cases ht with
    | weak _ h => exact ih h
    | weakP h1 _ => exact not_both h0 h1
  | obj h0 _ ih =>
    cases ht with
    | obj _ h => exact ih h
    | objP h1 _ => exact not_both h0 h1
  | refpI _ _ ih => cases ht with | refp _ h => exact ih h
  | alias _ ih => cases ht with | alias h => exact ih h
  | openRef => cases ht
  | _ => rfl

/-- A view of a tree is a value that can be written and represented again. -/
theorem Shows.tidy {v : Val} {t : Tree} {n m : Nat} (hs : Shows w h v t) (ht : Storable w n t) (hb : Bounded m t)
    (c : ECfg) (w' : ViewCfg) : Tidy c w' m h v := by
  induction hs generalizing n with
  | undef | cundef => exact .nil
  | undefP _ hm => exact .perlPtr (by rw [Heap.cellAt_eq hm]; rfl) (by rw [Heap.cellAt_eq hm]; exact .undef)
  | cundefP _ hm => exact .perlPtr (by rw [Heap.cellAt_eq hm]; rfl) (by rw [Heap.cellAt_eq hm]; exact .undef)
  | bool => exact .bool
  | int => exact .int
  | uint => exact .uint
  | f32 => exact .f32
  | f64 => exact .f64
  | str => cases hb with | str h => exact .str h
  | bin => cases hb with | bin h => exact .bin h
  | @arr p ts f hm _ ih =>
    cases ht with
    | arr ht =>
      cases hb with
      | arr h1 h2 =>
        refine .slice h1 fun i hi => ?_
        rw [Heap.cellAt_eq (hm i hi)]
        have hi' : ts[i]? = some ts[i] := List.getElem?_eq_getElem hi
        exact ih i _ hi' (ht _ (List.getElem_mem hi)) (h2 _ (List.getElem_mem hi))
  | @map m' kvs es hm hnd hk _ ih =>
    cases ht with
    | map ht =>
      cases hb with
      | map h1 h2 h3 =>
        have look : ∀ k v, mapLookup k es = some v → ∃ t, lastLookup k kvs = some t := by
          intro k v hl
          have := hk k
          rw [hl] at this
          exact Option.isSome_iff_exists.1 this.symm
        refine .smap ?_ ?_ ?_ ?_
        · rw [mapAt_mp hm]
          have : (es.map Prod.fst).length ≤ (kvs.map Prod.fst).length := by
            refine nodup_length_le hnd ?_
            intro k hk'
            obtain ⟨⟨k', v⟩, h4, rfl⟩ := List.mem_map.1 hk'
            have h5 : (mapLookup k' es).isSome = true := by
              rw [mapLookup_isSome]; exact hk'
            obtain ⟨v', h5⟩ := Option.isSome_iff_exists.1 h5
            obtain ⟨t, h6⟩ := look _ _ h5
            exact List.mem_map.2 ⟨_, lastLookup_mem h6, rfl⟩
          simp only [List.length_map] at this
          omega
        · rw [mapAt_mp hm]; exact hnd
        · rw [mapAt_mp hm]
          intro k v hl
          obtain ⟨t, h6⟩ := look _ _ hl
          exact h2 _ _ (lastLookup_mem h6)
        · rw [mapAt_mp hm]
          intro k v hl
          obtain ⟨t, h6⟩ := look _ _ hl
          exact ih k v t hl h6 (ht k t h6) (h3 _ _ (lastLookup_mem h6))
  | ref h1 _ ih =>
    cases hb with
    | ref hb =>
      cases ht with
      | ref _ ht => exact ih ht hb
      | refP h2 _ => exact not_both h1 h2
  | refP h1 hm hs ih =>
    cases hb with
    | ref hb =>
      cases ht with
      | ref h2 _ => exact not_both h2 h1
      | refP _ ht =>
        refine .ptr (fun _ => ?_) ?_
        · rw [Heap.cellAt_eq hm]; exact hs.not_perl ht
        · rw [Heap.cellAt_eq hm]; exact ih ht hb
  | refp h1 _ _ _ => cases ht with | refp h2 _ => exact not_both h1 h2
  | refpI _ _ ih =>
    cases hb with
    | refp hb => cases ht with | refp _ ht => exact ih ht hb
  | alias _ ih =>
    cases hb with
    | alias hb => cases ht with | alias ht => exact ih ht hb
  | openRef => cases ht
  | weak h1 _ ih =>
    cases hb with
    | weak hb =>
      cases ht with
      | weak _ ht => exact ih ht hb
      | weakP h2 _ => exact not_both h1 h2
  | weakP h1 hm _ ih =>
    cases hb with
    | weak hb =>
      cases ht with
      | weak h2 _ => exact not_both h2 h1
      | weakP _ ht =>
        exact .perlPtr (by rw [Heap.cellAt_eq hm]; rfl) (by rw [Heap.cellAt_eq hm]; exact .weak (ih ht hb))
  | obj h1 _ ih =>
    cases hb with
    | obj _ hb =>
      cases ht with
      | obj _ ht => exact ih ht hb
      | objP h2 _ => exact not_both h1 h2
  | objP h1 hm _ ih =>
    cases hb with
    | obj hc hb =>
      cases ht with
      | obj h2 _ => exact not_both h2 h1
      | objP _ ht =>
        exact .perlPtr (by rw [Heap.cellAt_eq hm]; rfl) (by rw [Heap.cellAt_eq hm]; exact .obj hc (ih ht hb))
  | regexp hm =>
    cases hb with
    | regexp h1 h2 =>
      exact .perlPtr (by rw [Heap.cellAt_eq hm]; rfl) (by rw [Heap.cellAt_eq hm]; exact .regexp h1 h2)
  | frozen => cases ht
  | thawed => cases ht

theorem Handled.sub {c : ECfg} {v u : Val} (hh : Handled c h v) (hl : Leads c h v u) : Handled c h u := by
  obtain ⟨S, h1, h2⟩ := hh
  exact ⟨S, (h2 v h1).2 u hl, h2⟩

theorem Handled.ok {c : ECfg} {v : Val} (hh : Handled c h v) : ¬ Refused c h v := by
  obtain ⟨S, h1, h2⟩ := hh
  exact (h2 v h1).1

/-- A pointer to a Perl struct. -/
theorem writable_perl {c : ECfg} {S : Addr → Prop} {n : Nat} {a : Addr} {u : Val} (hm : h.mem a = .cell u)
    (hp : PerlThing u) (hw : Writable c h S n u) : Writable c h S (n + 1) (.ptr false a) := by
  have e := Heap.cellAt_eq hm
  refine .level trivial (fun h => h.elim) ?_ ?_
  · rintro x (h1 | ⟨h1, h2⟩)
    · cases h1
    · cases h1; rw [e] at h2; exact h2 hp
  · intro x hx
    cases hx with
    | perl _ => rw [e]; exact hw

/-- A view of a tree can be written. -/
theorem Shows.writable {v : Val} {t : Tree} {n : Nat} {c : ECfg} (hs : Shows w h v t) (ht : Storable w n t)
    (hh : w.perlCompat = true → Handled c h v) (S : Addr → Prop) : Writable c h S n v := by
  induction hs generalizing n S with
  | undef | cundef | bool | int | uint | f32 | f64 | str | bin => exact .plain trivial
  | undefP h1 hm =>
    cases ht with
    | undef h2 => exact not_both h2 h1
    | undefP => exact writable_perl hm trivial (.plain trivial)
  | cundefP h1 hm =>
    cases ht with
    | cundef h2 => exact not_both h2 h1
    | cundefP => exact writable_perl hm trivial (.plain trivial)
  | @arr p ts f hm _ ih =>
    cases ht with
    | arr ht =>
      refine .level trivial (fun h => h.elim) ?_ ?_
      · rintro x (h1 | ⟨h1, _⟩) <;> cases h1
      · intro x hx
        cases hx with
        | @elem _ _ i hi =>
          have hl : Leads c h (.slice p ts.length) (h.cellAt (p + i)) := .inl (.elem hi)
          rw [Heap.cellAt_eq (hm i hi)] at hl ⊢
          exact ih i _ (List.getElem?_eq_getElem hi) (ht _ (List.getElem_mem hi)) (fun hp => (hh hp).sub hl) S
  | @map m' kvs es hm hnd hk _ ih =>
    cases ht with
    | map ht =>
      refine .level trivial (fun h => h.elim) ?_ ?_
      · rintro x (h1 | ⟨h1, _⟩) <;> cases h1
      · intro x hx
        cases hx with
        | @entry _ k _ hl =>
          have hle : Leads c h (.smap m') x := .inl (.entry hl)
          rw [mapAt_mp hm] at hl
          have := hk k
          rw [hl] at this
          obtain ⟨t, h6⟩ := Option.isSome_iff_exists.1 this.symm
          exact ih k x t hl h6 (ht k t h6) (fun hp => (hh hp).sub hle) S
  | ref h1 _ ih =>
    cases ht with
    | ref _ ht => exact ih ht hh S
    | refP h2 _ => exact not_both h1 h2
  | @refP b a v t h1 hm hs ih =>
    cases ht with
    | ref h2 _ => exact not_both h2 h1
    | refP _ ht =>
      have e := Heap.cellAt_eq hm
      have ho : OrdPtr h (.ptr b a) a := by
        cases b with
        | true => exact .inl rfl
        | false =>
          refine .inr ⟨rfl, fun hp => ?_⟩
          rw [e] at hp
          have := perl_iff.2 hp
          rw [hs.not_perl ht] at this
          cases this
      refine .ptr ho (hh h1).ok ?_
      rw [e]
      exact ih ht (fun _ => (hh h1).sub (.inr (.inr ⟨a, ho, e.symm⟩))) _
  | refp h1 _ _ _ => cases ht with | refp h2 _ => exact not_both h1 h2
  | refpI _ _ ih => cases ht with | refp _ ht => exact ih ht hh S
  | alias _ ih => cases ht with | alias ht => exact ih ht hh S
  | openRef => cases ht
  | weak h1 _ ih =>
    cases ht with
    | weak _ ht => exact ih ht hh S
    | weakP h2 _ => exact not_both h1 h2
  | @weakP a v t h1 hm _ ih =>
    cases ht with
    | weak h2 _ => exact not_both h2 h1
    | weakP _ ht =>
      refine writable_perl hm trivial (.same .weak (ih ht (fun _ => ?_) S))
      have e := Heap.cellAt_eq hm
      have hp : PerlThing (h.cellAt a) := by rw [e]; trivial
      have h3 := (hh h1).sub (.inl (.perl hp))
      rw [e] at h3
      exact h3.sub (.inr (.inl .weak))
  | obj h1 _ ih =>
    cases ht with
    | obj _ ht => exact ih ht hh S
    | objP h2 _ => exact not_both h1 h2
  | @objP a cls v t h1 hm _ ih =>
    cases ht with
    | obj h2 _ => exact not_both h2 h1
    | objP _ ht =>
      refine writable_perl hm trivial (.same .obj (ih ht (fun _ => ?_) S))
      have e := Heap.cellAt_eq hm
      have hp : PerlThing (h.cellAt a) := by rw [e]; trivial
      have h3 := (hh h1).sub (.inl (.perl hp))
      rw [e] at h3
      exact h3.sub (.inr (.inl .obj))
  | regexp hm =>
    cases ht with
    | regexp => exact writable_perl hm trivial (.plain trivial)
  | frozen => cases ht
  | thawed => cases ht

/-- Without PerlCompat the only pointers are those to PerlRegexps. -/
theorem Shows.bare {v : Val} {t : Tree} {n : Nat} (hs : Shows w h v t) (ht : Storable w n t) (hp : w.perlCompat = false)
    {c : ECfg} : (∀ a, ¬ OrdPtr h v a) ∧ ∀ u, Leads c h v u → (∃ t n, Shows w h u t ∧ Storable w n t) ∨ ∃ p m, u = .regexp p m := by
  have leaf : ∀ {v : Val}, Plainly v → (∀ a, ¬ OrdPtr h v a) ∧
      ∀ u, Leads c h v u → (∃ t n, Shows w h u t ∧ Storable w n t) ∨ ∃ p m, u = .regexp p m := by
    intro v hv
    refine ⟨?_, ?_⟩
    · rintro a (rfl | ⟨rfl, _⟩) <;> exact hv.elim
    · rintro u (h1 | h1 | ⟨a, rfl | ⟨rfl, _⟩, _⟩)
      · cases h1 <;> exact hv.elim
      · cases h1 <;> exact hv.elim
      · exact hv.elim
      · exact hv.elim
  induction hs generalizing n with
  | undef | cundef | bool | int | uint | f32 | f64 | str | bin => exact leaf trivial
  | undefP h1 => exact not_both hp h1
  | cundefP h1 => exact not_both hp h1
  | @arr p ts f hm hs _ =>
    cases ht with
    | arr ht =>
      refine ⟨?_, ?_⟩
      · rintro x (h1 | ⟨h1, _⟩) <;> cases h1
      · rintro u (h1 | h1 | ⟨a, h1 | ⟨h1, _⟩, _⟩)
        · cases h1 with
          | @elem _ _ i hi =>
            refine .inl ⟨ts[i], _, ?_, ht _ (List.getElem_mem hi)⟩
            rw [Heap.cellAt_eq (hm i hi)]
            exact hs i _ (List.getElem?_eq_getElem hi)
        · cases h1
        · cases h1
        · cases h1
  | @map m' kvs es hm hnd hk hs _ =>
    cases ht with
    | map ht =>
      refine ⟨?_, ?_⟩
      · rintro x (h1 | ⟨h1, _⟩) <;> cases h1
      · rintro u (h1 | h1 | ⟨a, h1 | ⟨h1, _⟩, _⟩)
        · cases h1 with
          | @entry _ k _ hl =>
            rw [mapAt_mp hm] at hl
            have := hk k
            rw [hl] at this
            obtain ⟨t, h6⟩ := Option.isSome_iff_exists.1 this.symm
            exact .inl ⟨t, _, hs k u t hl h6, ht k t h6⟩
        · cases h1
        · cases h1
        · cases h1
  | ref _ _ ih => cases ht with | ref _ ht => exact ih ht | refP h2 _ => exact not_both hp h2
  | refP h1 => exact not_both hp h1
  | refp h1 _ _ _ => cases ht with | refp h2 _ => exact not_both h1 h2
  | refpI _ _ ih => cases ht with | refp _ ht => exact ih ht
  | alias _ ih => cases ht with | alias ht => exact ih ht
  | openRef => cases ht
  | weak _ _ ih => cases ht with | weak _ ht => exact ih ht | weakP h2 _ => exact not_both hp h2
  | weakP h1 => exact not_both hp h1
  | obj _ _ ih => cases ht with | obj _ ht => exact ih ht | objP h2 _ => exact not_both hp h2
  | objP h1 => exact not_both hp h1
  | @regexp a p m hm =>
    have e := Heap.cellAt_eq hm
    have no : ∀ x, ¬ OrdPtr h (.ptr false a) x := by
      rintro x (h1 | ⟨h1, h2⟩)
      · cases h1
      · cases h1; rw [e] at h2; exact h2 trivial
    refine ⟨no, ?_⟩
    rintro u (h1 | h1 | ⟨x, h1, _⟩)
    · cases h1 with
      | perl _ => exact .inr ⟨p, m, e⟩
    · cases h1
    · exact absurd h1 (no x)
  | frozen => cases ht
  | thawed => cases ht

theorem Shows.noPointers {v : Val} {t : Tree} {n : Nat} (hs : Shows w h v t) (ht : Storable w n t) (hp : w.perlCompat = false)
    (c : ECfg) : NoPointers c h v := by
  refine ⟨fun u => (∃ t n, Shows w h u t ∧ Storable w n t) ∨ ∃ p m, u = .regexp p m, .inl ⟨t, n, hs, ht⟩, ?_⟩
  rintro u (⟨t, n, h1, h2⟩ | ⟨p, m, rfl⟩)
  · exact h1.bare h2 hp
  · refine ⟨?_, ?_⟩
    · rintro a (h1 | ⟨h1, _⟩) <;> cases h1
    · rintro u (h1 | h1 | ⟨a, h1 | ⟨h1, _⟩, _⟩) <;> cases h1

theorem PtrTo.iso {v' u u' : Val} {a : Addr} (hm : h.mem a = .cell u) (hp : PtrTo h' v' u') (hi : Iso h h' u u') :
    Iso h h' (.ptr false a) v' := by
  obtain ⟨a', rfl, hm'⟩ := hp
  exact .ptr_of hm hm' hi

theorem IsUndef.iso {v' : Val} {a : Addr} {b : Bool} (hw : w.perlCompat = true) (hm : h.mem a = .cell (.undef b))
    (hu : IsUndef w h' v' b) : Iso h h' (.ptr false a) v' := by
  rcases hu with ⟨h1, _⟩ | ⟨_, h1, _⟩
  · exact not_both h1 hw
  · exact h1.iso hm .undef

/-- The pointer to a Perl struct arrives as the struct does. -/
theorem ArrivesAs.perl_inv {c : ECfg} {rn : Bool} {a : Addr} {u v' : Val} (hm : h.mem a = .cell u) (hp : isPerlStruct u = true)
    (ha : ArrivesAs c w h h' rn (.ptr false a) v') : ArrivesAs c w h h' false u v' := by
  have e := Heap.cellAt_eq hm
  cases ha with
  | perlPtr _ h => rw [e] at h; exact h
  | ptr hb => have := hb rfl; rw [e, hp] at this; cases this

/-- A view of a tree arrives unchanged. -/
theorem Shows.again {c : ECfg} {v v' : Val} {t : Tree} {n : Nat} {rn : Bool} (hs : Shows w h v t) (ht : Storable w n t)
    (hr : c.perlCompat = true → w.perlCompat = true → Referenced rn t) (ha : ArrivesAs c w h h' rn v v') : Iso h h' v v' := by
  induction hs generalizing n rn v' with
  | undef h1 | cundef h1 =>
    cases ha with
    | nil hu =>
      rcases hu with ⟨_, rfl⟩ | ⟨h2, _⟩
      · exact .nil
      · exact not_both h1 h2
  | undefP h1 hm =>
    cases ha.perl_inv hm rfl with
    | undef hu => exact hu.iso h1 hm
  | cundefP h1 hm =>
    cases ha.perl_inv hm rfl with
    | undef hu => exact hu.iso h1 hm
  | bool => cases ha; exact .bool
  | @int i =>
    cases ha with
    | int hn =>
      rcases hn with ⟨j, rfl, e⟩ | ⟨u, rfl, h1, e⟩
      · rw [i64_ext e]; exact .int
      · have := i.toInt_lt; omega
  | @uint u hu =>
    cases ha with
    | uint hn =>
      rcases hn with ⟨j, rfl, e⟩ | ⟨u', rfl, h1, e⟩
      · have := j.toInt_lt; omega
      · have : u' = u := UInt64.toNat_inj.1 (by omega)
        rw [this]; exact .uint
  | f32 => cases ha; exact .f32
  | f64 => cases ha; exact .f64
  | str => cases ha; exact .str
  | bin => cases ha; exact .bin
  | @arr p ts f hm _ ih =>
    cases ht with
    | arr ht =>
      cases ha with
      | slice hH hel =>
        have hb : (c.perlCompat && !rn && w.perlCompat) = false := by
          cases h1 : c.perlCompat <;> cases h2 : w.perlCompat <;> cases rn <;> try rfl
          cases hr h1 h2
        rcases hH with ⟨_, rfl⟩ | ⟨h1, _⟩
        · refine .slice fun i hi => ?_
          have h1 := hel i hi
          rw [Heap.cellAt_eq (hm i hi)] at h1 ⊢
          exact ih i _ (List.getElem?_eq_getElem hi) (ht _ (List.getElem_mem hi))
            (fun g1 g2 => by cases hr g1 g2 with | arr h => exact h _ (List.getElem_mem hi)) h1
        · rw [hb] at h1; cases h1
  | @map m kvs es hm hnd hk _ ih =>
    cases ht with
    | map ht =>
      cases ha with
      | smap hH hnd' hk' hel =>
        have hb : (c.perlCompat && !rn && w.perlCompat) = false := by
          cases h1 : c.perlCompat <;> cases h2 : w.perlCompat <;> cases rn <;> try rfl
          cases hr h1 h2
        rcases hH with ⟨_, rfl⟩ | ⟨h1, _⟩
        · refine .smap (by rw [mapAt_mp hm]; exact hnd) hnd' hk' fun k x x' hx hx' => ?_
          have h1 := hel k x x' hx hx'
          rw [mapAt_mp hm] at hx
          have := hk k
          rw [hx] at this
          obtain ⟨t, h6⟩ := Option.isSome_iff_exists.1 this.symm
          exact ih k x t hx h6 (ht k t h6) (fun g1 g2 => by cases hr g1 g2 with | map h => exact h k t h6) h1
        · rw [hb] at h1; cases h1
  | ref h1 _ ih =>
    cases ht with
    | ref _ ht => exact ih ht (fun _ g => not_both h1 g) ha
    | refP h2 _ => exact not_both h1 h2
  | @refP b a v t h1 hm hs ih =>
    cases ht with
    | ref h2 _ => exact not_both h2 h1
    | refP _ ht =>
      have e := Heap.cellAt_eq hm
      cases ha with
      | perlPtr hp _ => rw [e, hs.not_perl ht] at hp; cases hp
      | ptr _ hH hA =>
        rw [e] at hA
        have hi := ih ht (fun g1 g2 => by cases hr g1 g2 with | ref h => exact h) hA
        rcases hH with ⟨h2, _⟩ | ⟨_, i, a', rfl, hm'⟩
        · exact not_both h2 h1
        · exact .ptr_of hm hm' hi
  | refp h1 _ _ _ => cases ht with | refp h2 _ => exact not_both h1 h2
  | refpI _ _ ih =>
    cases ht with | refp _ ht => exact ih ht (fun g1 g2 => by cases hr g1 g2 with | refp h => exact h) ha
  | alias _ ih => cases ht with | alias ht => exact ih ht (fun g1 g2 => by cases hr g1 g2 with | alias h => exact h) ha
  | openRef => cases ht
  | weak h1 _ ih =>
    cases ht with
    | weak _ ht => exact ih ht (fun _ g => not_both h1 g) ha
    | weakP h2 _ => exact not_both h1 h2
  | weakP h1 hm _ ih =>
    cases ht with
    | weak h2 _ => exact not_both h2 h1
    | weakP _ ht =>
      cases ha.perl_inv hm rfl with
      | weak hB hA =>
        have hi := ih ht (fun g1 g2 => by cases hr g1 g2 with | weak h => exact h) hA
        rcases hB with ⟨h2, _⟩ | ⟨_, h2⟩
        · exact not_both h2 h1
        · exact h2.iso hm (.weak hi)
  | obj h1 _ ih =>
    cases ht with
    | obj _ ht => exact ih ht (fun _ g => not_both h1 g) ha
    | objP h2 _ => exact not_both h1 h2
  | objP h1 hm _ ih =>
    cases ht with
    | obj h2 _ => exact not_both h2 h1
    | objP _ ht =>
      cases ha.perl_inv hm rfl with
      | obj hB hA =>
        have hi := ih ht (fun g1 g2 => by cases hr g1 g2 with | obj h => exact h) hA
        rcases hB with ⟨h2, _⟩ | ⟨_, h2⟩
        · exact not_both h2 h1
        · exact h2.iso hm (.obj hi)
  | regexp hm =>
    cases ha.perl_inv hm rfl with
    | regexp hp => exact hp.iso hm .regexp
  | frozen => cases ht
  | thawed => cases ht

end Sereal
