import Verif.Spec.Holds
import Verif.Proof.Unshared
import Verif.Proof.TypedApi
/-
Typed values survive Marshal and Unmarshal into a variable of the same type.
-/
namespace Sereal

theorem Fills.ref_inv {c : ViewCfg} {tc : TCfg} {S : Val → Tree → Prop} {ty : Ty} {cur v : TVal} {t : Tree}
    (h : Fills c tc S ty cur (.ref t) v) (hty : ty ≠ .iface) : Fills c tc S ty cur t v := by
  cases h with
  | iface => exact absurd rfl hty
  | ifaceNil => exact absurd rfl hty
  | ref _ h2 => exact h2
  | undefPtr _ h => rcases h with h | h <;> cases h
  | undefMap _ h => rcases h with h | h <;> cases h
  | undefSlice _ h => rcases h with h | h <;> cases h
  | undef _ h => rcases h with h | h <;> cases h

theorem Fills.obj_inv {c : ViewCfg} {tc : TCfg} {S : Val → Tree → Prop} {ty : Ty} {cur v : TVal} {t : Tree} {cls : Bytes}
    (h : Fills c tc S ty cur (.obj cls t) v) (hty : ty ≠ .iface) : Fills c tc S ty cur t v := by
  cases h with
  | iface => exact absurd rfl hty
  | ifaceNil => exact absurd rfl hty
  | obj _ _ h2 => exact h2
  | undefPtr _ h => rcases h with h | h <;> cases h
  | undefMap _ h => rcases h with h | h <;> cases h
  | undefSlice _ h => rcases h with h | h <;> cases h
  | undef _ h => rcases h with h | h <;> cases h

theorem Fills.wrap {c : ViewCfg} {tc : TCfg} {S : Val → Tree → Prop} {ty : Ty} {cur v : TVal} {t : Tree}
    (h : Fills c tc S ty cur t v) (b : Bool) (hty : ty ≠ .iface) : Fills c tc S ty cur (refWrap b t) v := by
  cases b
  · exact h
  · exact .ref hty h

theorem Fills.wrap_inv {c : ViewCfg} {tc : TCfg} {S : Val → Tree → Prop} {ty : Ty} {cur v : TVal} {t : Tree} {b : Bool}
    (h : Fills c tc S ty cur (refWrap b t) v) (hty : ty ≠ .iface) : Fills c tc S ty cur t v := by
  cases b
  · exact h
  · exact h.ref_inv hty

theorem Takes.wrap {c : ViewCfg} {tc : TCfg} {ty : Ty} {cur : TVal} {t : Tree}
    (h : Takes c tc ty cur t) (b : Bool) (hty : ty ≠ .iface) : Takes c tc ty cur (refWrap b t) :=
  h.elim fun v hv => ⟨v, hv.wrap b hty⟩

theorem NoRefs.wrap_inv {t : Tree} {b : Bool} (h : NoRefs (Sereal.refWrap b t)) : NoRefs t := by
  cases b
  · exact h
  · cases h; assumption

/-- A hash, perhaps behind references and as an object. -/
inductive HashTree : Tree → Prop
  | map {kts} : HashTree (.map kts)
  | ref {t} : HashTree t → HashTree (.ref t)
  | obj {cls t} : HashTree t → HashTree (.obj cls t)

theorem HashTree.wrap {t : Tree} (h : HashTree t) (b : Bool) : HashTree (refWrap b t) := by
  cases b
  · exact h
  · exact .ref h

theorem HashTy.ne {e : Ty} (h : HashTy e) : e ≠ .iface := by rintro rfl; cases h

theorem HashTree.fills {c : ViewCfg} {tc : TCfg} {S : Val → Tree → Prop} {e : Ty} {t : Tree} {v : TVal}
    (h : HashTree t) (hc : c.perlCompat = false) (he : HashTy e) (hf : Fills c tc S e .zero t v) :
    Fills c tc S (.ptr e) .zero t (.ptr v) := by
  induction h with
  | map => exact .ptr he hf
  | ref _ ih => exact .ref (by simp) (ih (hf.ref_inv he.ne))
  | obj _ ih => exact .obj hc (by simp) (ih (hf.obj_inv he.ne))

theorem HashTree.fills_inv {c : ViewCfg} {tc : TCfg} {S : Val → Tree → Prop} {e : Ty} {t : Tree} {w : TVal}
    (h : HashTree t) (hc : c.perlCompat = false) (he : HashTy e) (hf : Fills c tc S (.ptr e) .zero t w) :
    ∃ v, w = .ptr v ∧ Fills c tc S e .zero t v := by
  induction h with
  | map =>
    cases hf with
    | ptr _ h => exact ⟨_, rfl, h⟩
    | undefPtr _ h => rcases h with h | h <;> cases h
    | undef _ h => rcases h with h | h <;> cases h
  | ref _ ih =>
    obtain ⟨v, rfl, h⟩ := ih (hf.ref_inv (by simp))
    exact ⟨v, rfl, .ref he.ne h⟩
  | obj _ ih =>
    obtain ⟨v, rfl, h⟩ := ih (hf.obj_inv (by simp))
    exact ⟨v, rfl, .obj hc he.ne h⟩

/-- Elements chosen one by one. -/
theorem choose_list {α β : Type} {P : Nat → α → β → Prop} (ts : List α) (h : ∀ (i : Nat) t, ts[i]? = some t → ∃ v, P i t v) :
    ∃ vs : List β, vs.length = ts.length ∧ ∀ (i : Nat) t v, ts[i]? = some t → vs[i]? = some v → P i t v := by
  induction ts generalizing P with
  | nil => exact ⟨[], rfl, by intro i t v h; simp at h⟩
  | cons t ts ih =>
    obtain ⟨v, hv⟩ := h 0 t rfl
    obtain ⟨vs, hl, hvs⟩ := ih (P := fun i => P (i + 1)) (fun i t ht => h (i + 1) t (by simpa using ht))
    refine ⟨v :: vs, by simp [hl], ?_⟩
    intro i u w hu hw
    cases i with
    | zero =>
      simp only [List.getElem?_cons_zero, Option.some.injEq] at hu hw
      subst hu hw
      exact hv
    | succ i => exact hvs i u w (by simpa using hu) (by simpa using hw)

theorem nodup_lookup {α : Type} {kvs : List (Bytes × α)} (hn : (kvs.map Prod.fst).Nodup) {k : Bytes} {v : α} (h : (k, v) ∈ kvs) :
    mapLookup k kvs = some v := by
  induction kvs with
  | nil => simp at h
  | cons p kvs ih =>
    obtain ⟨k', v'⟩ := p
    have hn' : k' ∉ kvs.map Prod.fst ∧ (kvs.map Prod.fst).Nodup := List.nodup_cons.1 hn
    rcases List.mem_cons.1 h with e | h
    · cases e; simp [mapLookup]
    · have : k' ≠ k := by
        rintro rfl
        exact hn'.1 (List.mem_map.2 ⟨_, h, rfl⟩)
      rw [mapLookup, if_neg this, ih hn'.2 h]

/-- Entries chosen one by one. -/
theorem choose_map {β : Type} {P : Bytes → Tree → β → Prop} (kts : List (Bytes × Tree)) (hn : (kts.map Prod.fst).Nodup)
    (h : ∀ k t, (k, t) ∈ kts → ∃ v, P k t v) :
    ∃ kvs : List (Bytes × β), (∀ k t, (k, t) ∈ kts → ∃ v, mapLookup k kvs = some v ∧ P k t v) ∧
      ∀ k, k ∉ kts.map Prod.fst → mapLookup k kvs = none := by
  induction kts with
  | nil => exact ⟨[], by simp, by simp [mapLookup]⟩
  | cons p kts ih =>
    obtain ⟨k, t⟩ := p
    have hn' : k ∉ kts.map Prod.fst ∧ (kts.map Prod.fst).Nodup := List.nodup_cons.1 hn
    obtain ⟨v, hv⟩ := h k t (List.mem_cons_self ..)
    obtain ⟨kvs, h1, h2⟩ := ih hn'.2 (fun k' u hu => h k' u (List.mem_cons_of_mem _ hu))
    refine ⟨(k, v) :: kvs, ?_, ?_⟩
    · intro k' u hu
      rcases List.mem_cons.1 hu with e | hu
      · cases e; exact ⟨v, by simp [mapLookup], hv⟩
      · obtain ⟨w, hw, hp⟩ := h1 k' u hu
        refine ⟨w, ?_, hp⟩
        have : k ≠ k' := by
          rintro rfl
          exact hn'.1 (List.mem_map.2 ⟨_, hu, rfl⟩)
        rw [mapLookup, if_neg this, hw]
    · intro k' hk'
      simp only [List.map_cons, List.mem_cons, not_or] at hk'
      rw [mapLookup, if_neg (Ne.symm hk'.1), h2 k' hk'.2]

/-! ### Fields -/

theorem lastLookup_cons {α : Type} (k k' : Bytes) (v : α) (xs : List (Bytes × α)) :
    lastLookup k ((k', v) :: xs) = (match lastLookup k xs with | some w => some w | none => if k' = k then some v else none) := by
  unfold lastLookup
  rw [List.reverse_cons, mapLookup_append]
  cases mapLookup k xs.reverse <;> rfl

theorem fieldEntries_last {fs : List Field} {k : Bytes} {i : Nat} {f : Field} (hf : fs[i]? = some f) (hk : effName f = some k)
    (hl : ∀ (j : Nat) g, i < j → fs[j]? = some g → effName g ≠ some k) : lastLookup k (fieldEntries fs) = some f.val := by
  induction fs generalizing i with
  | nil => simp at hf
  | cons g fs ih =>
    have hc : fieldEntries (g :: fs) = (match effName g with | some k' => [(k', g.val)] | none => []) ++ fieldEntries fs := by
      unfold fieldEntries
      rw [List.filterMap_cons]
      cases effName g <;> rfl
    cases i with
    | zero =>
      simp only [List.getElem?_cons_zero, Option.some.injEq] at hf
      subst hf
      rw [hc, hk]
      have : lastLookup k (fieldEntries fs) = none := by
        cases h : lastLookup k (fieldEntries fs) with
        | none => rfl
        | some v =>
          have := lastLookup_mem h
          unfold fieldEntries at this
          obtain ⟨g, hg, he⟩ := List.mem_filterMap.1 this
          obtain ⟨j, hj, rfl⟩ := List.getElem_of_mem hg
          cases hn : effName fs[j] with
          | none => rw [hn] at he; simp at he
          | some k' =>
            rw [hn] at he
            simp only [Option.map_some, Option.some.injEq, Prod.mk.injEq] at he
            exact absurd (by rw [hn, he.1]) (hl (j + 1) fs[j] (by omega) (by simp [hj]))
      show lastLookup k ((k, _) :: fieldEntries fs) = _
      rw [lastLookup_cons, this]
      simp
    | succ i =>
      have := ih (by simpa using hf) (fun j g hj hg => hl (j + 1) g (by omega) (by simpa using hg))
      rw [hc]
      cases hn : effName g with
      | none => exact this
      | some k' =>
        show lastLookup k ((k', g.val) :: fieldEntries fs) = _
        rw [lastLookup_cons, this]

theorem effName_key {f : Field} {g : TField} (h : f.name = g.name ∧ f.tag = g.tag ∧ f.exported = g.exported) :
    effName f = g.key := by
  unfold effName TField.key
  rw [h.1, h.2.1, h.2.2]

theorem IsSlice.written {cfg : ECfg} {inp : Heap} {v : Val} {p n : Nat} {rn : Bool} {t : Tree} (h : IsSlice v p n)
    (hw : Written cfg inp rn v t) : ∃ b ts, t = refWrap b (.arr ts) ∧ ts.length = n ∧
      ∀ (i : Nat) t, ts[i]? = some t → Written cfg inp false (inp.cellAt (p + i)) t := by
  rcases h with rfl | rfl
  · cases hw with
    | slice h => exact ⟨_, _, rfl, rfl, h⟩
  · cases hw with
    | rslice h => exact ⟨_, _, rfl, rfl, h⟩

theorem IsMap.written {cfg : ECfg} {inp : Heap} {v : Val} {m : Nat} {rn : Bool} {t : Tree} (h : IsMap v m)
    (hw : Written cfg inp rn v t) : ∃ b kts, t = refWrap b (.map kts) ∧
      (kts.map Prod.fst).Perm ((inp.mapAt m).map Prod.fst) ∧
      ∀ k t v, (k, t) ∈ kts → mapLookup k (inp.mapAt m) = some v → Written cfg inp false v t := by
  rcases h with rfl | rfl
  · cases hw with
    | smap h1 h2 => exact ⟨_, _, rfl, h1, h2⟩
  · cases hw with
    | rmap h1 h2 => exact ⟨_, _, rfl, h1, h2⟩

theorem IsHash.written {cfg : ECfg} {inp : Heap} {v : Val} {rn : Bool} {t : Tree} (h : IsHash v)
    (hw : Written cfg inp rn v t) : HashTree t := by
  rcases h with ⟨name, a, rfl⟩ | ⟨m, h⟩
  · cases hw with
    | strct _ _ _ => exact .obj (HashTree.map.wrap _)
  · obtain ⟨b, kts, rfl, _⟩ := h.written hw
    exact HashTree.map.wrap _

theorem IsHash.notPerl {v : Val} (h : IsHash v) : isPerlStruct v = false := by
  rcases h with ⟨name, a, rfl⟩ | ⟨m, rfl | rfl⟩ <;> rfl

theorem Wraps.int_eq {k : IntK} {z : Int} {n i : Int64} (h : Wraps k.width (-2 ^ (k.width - 1)) z n.toInt)
    (hz : z = i.toInt ∨ z = 2 ^ 64 + i.toInt) (h1 : -2 ^ (k.width - 1) ≤ i.toInt) (h2 : i.toInt < 2 ^ (k.width - 1)) : n = i := by
  apply i64_ext
  unfold Wraps at h
  generalize i.toInt = x at *
  generalize n.toInt = y at *
  cases k <;> simp only [IntK.width, IntK.bits, Int.reducePow, Nat.reduceSub] at * <;> omega

theorem Wraps.uint_eq {k : UintK} {n m : UInt64} (h : Wraps k.width 0 n.toNat m.toNat) (h1 : n.toNat < 2 ^ k.width) : m = n := by
  apply UInt64.toNat_inj.1
  unfold Wraps at h
  generalize n.toNat = x at *
  generalize m.toNat = y at *
  cases k <;> simp only [UintK.width, UintK.bits, Nat.reducePow, Int.reducePow] at * <;> omega

theorem int_wraps (k : IntK) {z : Int} {i : Int64} (h : (2 ^ 64 : Int) ∣ i.toInt - z) :
    ∃ n : Int64, Wraps k.width (-2 ^ (k.width - 1)) z n.toInt := ⟨_, k.conv_wraps i h⟩

/-- What every element does, every sequence of elements does. -/
theorem seq_round {c : ViewCfg} {tc : TCfg} {e : Ty} {Q : Heap → Nat → TVal → Prop} {ts : List Tree}
    (h : ∀ (i : Nat) t, ts[i]? = some t → Takes c tc e .zero t ∧ ∀ h w, Fills c tc (Shows c h) e .zero t w → Q h i w) :
    (∃ ws : List TVal, ws.length = ts.length ∧ ∀ (i : Nat) t b v, ts[i]? = some t →
      (List.replicate ts.length TVal.zero)[i]? = some b → ws[i]? = some v →
        Fills c tc (fun _ t => Supported c t) e b t v) ∧
    ∀ h (ws : List TVal), ws.length = ts.length → (∀ (i : Nat) t b v, ts[i]? = some t →
      (List.replicate ts.length TVal.zero)[i]? = some b → ws[i]? = some v → Fills c tc (Shows c h) e b t v) →
      ∀ (i : Nat) w, ws[i]? = some w → Q h i w := by
  have hz : ∀ (i : Nat) b, (List.replicate ts.length TVal.zero)[i]? = some b → b = .zero := by
    intro i b hb
    rw [List.getElem?_replicate] at hb
    split at hb <;> simp_all
  refine ⟨?_, ?_⟩
  · obtain ⟨ws, hl, hw⟩ := choose_list (P := fun i t v => Fills c tc (fun _ t => Supported c t) e .zero t v) ts
      (fun i t ht => (h i t ht).1)
    refine ⟨ws, hl, fun i t b v ht hb hv => ?_⟩
    rw [hz i b hb]
    exact hw i t v ht hv
  · intro h' ws hl hw i w hiw
    have hi := (List.getElem?_eq_some_iff.1 hiw).1
    have ht : ts[i]? = some (ts[i]'(by omega)) := List.getElem?_eq_getElem (by omega)
    refine (h i _ ht).2 h' w (hw i _ .zero w ht ?_ hiw)
    rw [List.getElem?_replicate, if_pos (by omega)]

theorem NoRefs.ref_inv {t : Tree} (h : NoRefs (.ref t)) : NoRefs t := by cases h; assumption

/-- Where each entry of a struct goes. -/
theorem entry_field {cfg : ECfg} {inp : Heap} {a : Nat} {gs : List TField} {ws : List TVal} {kts : List (Bytes × Tree)}
    (hl1 : (inp.fieldsAt a).length = gs.length) (hl2 : ws.length = gs.length)
    (hfs : ∀ (i : Nat) f g, (inp.fieldsAt a)[i]? = some f → gs[i]? = some g →
      f.name = g.name ∧ f.tag = g.tag ∧ f.exported = g.exported)
    (hkeys : ∀ k, k ∈ kts.map Prod.fst ↔ k ∈ (fieldEntries (inp.fieldsAt a)).map Prod.fst)
    (hts : ∀ k t v, (k, t) ∈ kts → lastLookup k (fieldEntries (inp.fieldsAt a)) = some v → Written cfg inp false v t) :
    ∀ k t, (k, t) ∈ kts → ∃ i : Nat, ∃ f g w, FieldNamed gs k i ∧ (inp.fieldsAt a)[i]? = some f ∧ gs[i]? = some g ∧
      ws[i]? = some w ∧ g.key = some k ∧ Written cfg inp false f.val t := by
  intro k t hkt
  have hk := (hkeys k).1 (List.mem_map.2 ⟨_, hkt, rfl⟩)
  obtain ⟨⟨k', v⟩, hkv, rfl⟩ := List.mem_map.1 hk
  unfold fieldEntries at hkv
  obtain ⟨f, hf, he⟩ := List.mem_filterMap.1 hkv
  obtain ⟨j, hj, rfl⟩ := List.getElem_of_mem hf
  have hjg : gs[j]? = some (gs[j]'(by omega)) := List.getElem?_eq_getElem (by omega)
  have hkj : (gs[j]'(by omega)).key = some k' := by
    rw [← effName_key (hfs j _ _ (List.getElem?_eq_getElem hj) hjg)]
    cases hn : effName (inp.fieldsAt a)[j] with
    | none => rw [hn] at he; simp at he
    | some k2 =>
      rw [hn] at he
      simp only [Option.map_some, Option.some.injEq, Prod.mk.injEq] at he
      rw [he.1]
  rcases fieldNamed_or (fs := gs) k' with ⟨i, hi⟩ | hno
  · obtain ⟨⟨g, hg, hgk⟩, hlast⟩ := hi
    have hil := (List.getElem?_eq_some_iff.1 hg).1
    have hf : (inp.fieldsAt a)[i]? = some ((inp.fieldsAt a)[i]'(by omega)) := List.getElem?_eq_getElem (by omega)
    refine ⟨i, _, g, _, ⟨⟨g, hg, hgk⟩, hlast⟩, hf, hg, List.getElem?_eq_getElem (by omega), hgk, ?_⟩
    refine hts k' t _ hkt (fieldEntries_last hf ?_ ?_)
    · rw [effName_key (hfs i _ _ hf hg), hgk]
    · intro x f' hx hf'
      have hxl := (List.getElem?_eq_some_iff.1 hf').1
      have hg' : gs[x]? = some (gs[x]'(by omega)) := List.getElem?_eq_getElem (by omega)
      rw [effName_key (hfs x _ _ hf' hg')]
      exact hlast x _ hx hg'
  · exact absurd hkj (hno _ (List.getElem_mem _))

theorem NoRefs.wrap {t : Tree} (h : NoRefs t) (b : Bool) : NoRefs (Sereal.refWrap b t) := by
  cases b
  · exact h
  · exact .ref h

theorem Plain.noRefs {n : Nat} {inp : Heap} {v : Val} (hp : Plain n inp v) {cfg : ECfg} {rn : Bool} {t : Tree}
    (hw : Written cfg inp rn v t) : NoRefs t := by
  induction hp generalizing rn t with
  | nil => cases hw; exact .undef
  | bool => cases hw; exact .bool
  | int => cases hw; exact .int
  | uint => cases hw; exact .int
  | f32 => cases hw; exact .f32
  | f64 => cases hw; exact .f64
  | str h => cases hw; exact .str
  | bin h => cases hw; exact .bin
  | slice hl _ ih =>
    obtain ⟨b, ts, rfl, hl, hts⟩ := IsSlice.written (.inl rfl) hw
    refine NoRefs.wrap (.arr ?_) b
    intro t ht
    obtain ⟨i, hi, rfl⟩ := List.getElem_of_mem ht
    exact ih i (by omega) (hts i _ (List.getElem?_eq_getElem hi))
  | smap _ _ _ _ ih =>
    obtain ⟨b, kts, rfl, hperm, hts⟩ := IsMap.written (.inl rfl) hw
    refine NoRefs.wrap (.map ?_) b
    intro k t hkt
    obtain ⟨u, hu⟩ := Option.isSome_iff_exists.1 ((mapLookup_isSome k _).2
      (hperm.mem_iff.1 (List.mem_map.2 ⟨_, hkt, rfl⟩)))
    exact ih k u hu (hts k t u hkt hu)

theorem Holds.noRefs {tc : TCfg} {cfg : ECfg} {inp : Heap} (hnp : ∀ id, ∀ f ∈ (tc.types id).fields, NoPtr f.ty)
    {ty : Ty} {v : Val} {w0 : TVal} (H : Holds tc (!cfg.disableFreeze) inp (fun v _ => ∃ n, Plain n inp v) ty v w0) :
    NoPtr ty → ∀ rn t, Written cfg inp rn v t → NoRefs t := by
  induction H with
  | iface hu hp => intro _ rn t hw; obtain ⟨n, hp⟩ := hp; exact hp.noRefs hw
  | ifaceNil => intro _ rn t hw; exact (Plain.nil (n := 0)).noRefs hw
  | bool => intro _ rn t hw; cases hw; exact .bool
  | nbool => intro _ rn t hw; cases hw; exact .bool
  | int => intro _ rn t hw; cases hw; exact .int
  | nint => intro _ rn t hw; cases hw <;> exact .int
  | uint => intro _ rn t hw; cases hw; exact .int
  | f32 => intro _ rn t hw; cases hw; exact .f32
  | nf32 => intro _ rn t hw; cases hw; exact .f32
  | f64 => intro _ rn t hw; cases hw; exact .f64
  | nf64 => intro _ rn t hw; cases hw; exact .f64
  | str => intro _ rn t hw; cases hw; exact .str
  | nstr => intro _ rn t hw; cases hw; exact .str
  | bytes => intro _ rn t hw; cases hw; exact .bin
  | @slice e v p ws hs _ ih =>
    intro h rn t hw
    obtain ⟨b, ts, rfl, hl, hts⟩ := hs.written hw
    refine NoRefs.wrap (.arr ?_) b
    intro t ht
    obtain ⟨i, hi, rfl⟩ := List.getElem_of_mem ht
    exact ih i (ws[i]'(by omega)) (List.getElem?_eq_getElem _) h false _ (hts i _ (List.getElem?_eq_getElem hi))
  | @arr e p ws _ ih =>
    intro h rn t hw
    obtain ⟨b, ts, rfl, hl, hts⟩ := IsSlice.written (.inr rfl) hw
    refine NoRefs.wrap (.arr ?_) b
    intro t ht
    obtain ⟨i, hi, rfl⟩ := List.getElem_of_mem ht
    exact ih i (ws[i]'(by omega)) (List.getElem?_eq_getElem _) h false _ (hts i _ (List.getElem?_eq_getElem hi))
  | map hm _ hk _ ih =>
    intro h rn t hw
    obtain ⟨b, kts, rfl, hperm, hts⟩ := hm.written hw
    refine NoRefs.wrap (.map ?_) b
    intro k t hkt
    have h1 := (mapLookup_isSome k _).2 (hperm.mem_iff.1 (List.mem_map.2 ⟨_, hkt, rfl⟩))
    obtain ⟨u, hu⟩ := Option.isSome_iff_exists.1 h1
    rw [hk] at h1
    obtain ⟨w, hw⟩ := Option.isSome_iff_exists.1 h1
    exact ih k u w hu hw h false t (hts k t u hkt hu)
  | @strct id name a ws hl1 hl2 hfs _ ih =>
    intro _ rn t hw
    cases hw with
    | @strct _ _ _ kts hnd hkeys hts =>
    refine .obj (NoRefs.wrap (.map ?_) _)
    intro k t hkt
    obtain ⟨i, f, g, w, hn, hf, hg, hw, hk, hwr⟩ := entry_field hl1 hl2 hfs hkeys hts k t hkt
    exact ih i f g w k hf hg hw hn (hnp id g (List.mem_of_getElem? hg)) false t hwr
  | nilptr => intro h; exact h.elim
  | ptr => intro h; exact h.elim
  | marsh hz _ _ =>
    intro _ rn t hw
    have hz' : cfg.disableFreeze = false := by simpa using hz
    cases hw with
    | marshaler => exact .frz (.ref (.arr (by simp only [List.mem_singleton]; rintro t rfl; exact .bin)))
    | marshalerOff h => rw [hz'] at h; cases h
  | marshPtr => intro h; exact h.elim

theorem Holds.round {tc : TCfg} {cfg : ECfg} {inp : Heap} {c : ViewCfg} (hc : c.perlCompat = false) (hset : Settable tc)
    (hfl : Faithful tc) {ty : Ty} {v : Val} {w0 : TVal}
    (H : Holds tc (!cfg.disableFreeze) inp (fun v _ => ∃ n, Plain n inp v) ty v w0) :
    ∀ rn t, Written cfg inp rn v t → NoRefs t → Takes c tc ty .zero t ∧
      ∀ h w, Fills c tc (Shows c h) ty .zero t w → Holds tc (!cfg.disableFreeze) inp (Same inp h) ty v w := by
  induction H with
  | iface hu hp =>
    intro rn t hw hr
    obtain ⟨n, hp⟩ := hp
    refine ⟨⟨.iface (.bool true), .iface (hp.tree c hw).1 (by simp)⟩, fun h w hf => ?_⟩
    cases hf with
    | iface h1 h2 => exact .iface h2 (hp.same hc hw h1)
    | ifaceNil h1 =>
      have := hp.same hc hw h1
      cases this
      exact .ifaceNil
    | ref h => exact absurd rfl h
    | weak _ h => exact absurd rfl h
    | obj _ h => exact absurd rfl h
    | undef _ _ h => exact absurd rfl h
  | ifaceNil =>
    intro rn t hw hr
    have hp : Plain 0 inp .nil := .nil
    refine ⟨⟨.iface (.bool true), .iface (hp.tree c hw).1 (by simp)⟩, fun h w hf => ?_⟩
    cases hf with
    | iface h1 h2 => exact .iface h2 (hp.same hc hw h1)
    | ifaceNil h1 => exact .ifaceNil
    | ref h => exact absurd rfl h
    | weak _ h => exact absurd rfl h
    | obj _ h => exact absurd rfl h
    | undef _ _ h => exact absurd rfl h
  | bool =>
    intro rn t hw hr
    cases hw
    refine ⟨⟨_, .bool⟩, fun h w hf => ?_⟩
    cases hf with
    | bool => exact .bool
    | undef _ h => rcases h with h | h <;> cases h
  | nbool =>
    intro rn t hw hr
    cases hw
    refine ⟨⟨_, .bool⟩, fun h w hf => ?_⟩
    cases hf with
    | bool => exact .nbool
    | undef _ h => rcases h with h | h <;> cases h
  | @int k i h1 h2 =>
    intro rn t hw hr
    cases hw
    obtain ⟨n, hn⟩ := int_wraps k (z := i.toInt) (i := i) (by simp)
    refine ⟨⟨_, .int hn⟩, fun h w hf => ?_⟩
    cases hf with
    | int hn => rw [hn.int_eq (.inl rfl) h1 h2]; exact .int h1 h2
    | undef _ h => rcases h with h | h <;> cases h
  | @nint k i h1 h2 =>
    intro rn t hw hr
    have key : ∃ z, t = .int z ∧ (z = i.toInt ∨ z = 2 ^ 64 + i.toInt) := by
      cases hw with
      | nint => exact ⟨_, rfl, .inl rfl⟩
      | nintWrap => exact ⟨_, rfl, .inr rfl⟩
    obtain ⟨z, rfl, hz⟩ := key
    obtain ⟨n, hn⟩ := int_wraps k (z := z) (i := i) (by rcases hz with rfl | rfl <;> simp <;> omega)
    refine ⟨⟨_, .int hn⟩, fun h w hf => ?_⟩
    cases hf with
    | int hn => rw [hn.int_eq hz h1 h2]; exact .nint h1 h2
    | undef _ h => rcases h with h | h <;> cases h
  | @uint k n h1 =>
    intro rn t hw hr
    cases hw
    have hn : Wraps k.width 0 n.toNat n.toNat := ⟨by omega, by
      cases k <;> simp only [UintK.width, UintK.bits, Nat.reducePow, Int.reducePow] at * <;> omega, by simp⟩
    refine ⟨⟨_, .uint hn⟩, fun h w hf => ?_⟩
    cases hf with
    | uint hn => rw [hn.uint_eq h1]; exact .uint h1
    | undef _ h => rcases h with h | h <;> cases h
  | f32 hu =>
    intro rn t hw hr
    cases hw
    refine ⟨⟨_, .f32f32⟩, fun h w hf => ?_⟩
    cases hf with
    | f32f32 => rw [hfl _ hu]; exact .f32 hu
    | undef _ h => rcases h with h | h <;> cases h
  | nf32 hu =>
    intro rn t hw hr
    cases hw
    refine ⟨⟨_, .f32f32⟩, fun h w hf => ?_⟩
    cases hf with
    | f32f32 => rw [hfl _ hu]; exact .nf32 hu
    | undef _ h => rcases h with h | h <;> cases h
  | f64 =>
    intro rn t hw hr
    cases hw
    refine ⟨⟨_, .f64f64⟩, fun h w hf => ?_⟩
    cases hf with
    | f64f64 => exact .f64
    | undef _ h => rcases h with h | h <;> cases h
  | nf64 =>
    intro rn t hw hr
    cases hw
    refine ⟨⟨_, .f64f64⟩, fun h w hf => ?_⟩
    cases hf with
    | f64f64 => exact .nf64
    | undef _ h => rcases h with h | h <;> cases h
  | str =>
    intro rn t hw hr
    cases hw
    refine ⟨⟨_, .str⟩, fun h w hf => ?_⟩
    cases hf with
    | str => exact .str
    | undef _ h => rcases h with h | h <;> cases h
  | nstr =>
    intro rn t hw hr
    cases hw
    refine ⟨⟨_, .str⟩, fun h w hf => ?_⟩
    cases hf with
    | str => exact .nstr
    | undef _ h => rcases h with h | h <;> cases h
  | bytes =>
    intro rn t hw hr
    cases hw
    refine ⟨⟨_, .bytesNil⟩, fun h w hf => ?_⟩
    cases hf with
    | bytesNil => exact .bytes
    | undefSlice _ h => rcases h with h | h <;> cases h
    | undef _ h => rcases h with h | h <;> cases h
  | @slice e v p ws hs _ ih =>
    intro rn t hw hr
    obtain ⟨b, ts, rfl, hl, hts⟩ := hs.written hw
    have hr := hr.wrap_inv.arr_inv
    have hroom : TVal.room ts.length .zero = List.replicate ts.length .zero := rfl
    obtain ⟨⟨us, h1, h2⟩, h3⟩ := seq_round (c := c) (tc := tc) (e := e)
      (Q := fun h i w => Holds tc (!cfg.disableFreeze) inp (Same inp h) e (inp.cellAt (p + i)) w) (ts := ts)
      (fun i t ht => ih i (ws[i]'(by have := (List.getElem?_eq_some_iff.1 ht).1; omega))
        (List.getElem?_eq_getElem _) false t (hts i t ht) (hr t (List.mem_of_getElem? ht)))
    refine ⟨Takes.wrap ⟨.slice us, .slice ?_ ?_ ?_ ?_⟩ b (by simp), fun h w hf => ?_⟩
    · rw [hroom]; simpa using h1
    · rw [hroom]; exact h2
    · intro i hi
      rw [hroom, List.getElem?_eq_none (by omega), List.getElem?_eq_none (by simpa using hi)]
    · intro i t hi ht
      rw [hroom] at hi
      have := (List.getElem?_eq_some_iff.1 ht).1
      simp at hi; omega
    · have hf := hf.wrap_inv (by simp)
      cases hf with
      | @slice _ _ _ vs g1 g2 g3 g4 =>
        rw [hroom] at g1 g2
        have g1 : vs.length = ts.length := by simpa using g1
        refine .slice (p := p) ?_ (h3 h vs g1 g2)
        rw [g1, hl]; exact hs
      | undefSlice _ h => rcases h with h | h <;> cases h
      | undef _ h => rcases h with h | h <;> cases h
  | @arr e p ws _ ih =>
    intro rn t hw hr
    obtain ⟨b, ts, rfl, hl, hts⟩ := IsSlice.written (.inr rfl) hw
    have hr := hr.wrap_inv.arr_inv
    have hroom : TVal.parts ws.length .zero = List.replicate ts.length .zero := by rw [hl]; rfl
    obtain ⟨⟨us, h1, h2⟩, h3⟩ := seq_round (c := c) (tc := tc) (e := e)
      (Q := fun h i w => Holds tc (!cfg.disableFreeze) inp (Same inp h) e (inp.cellAt (p + i)) w) (ts := ts)
      (fun i t ht => ih i (ws[i]'(by have := (List.getElem?_eq_some_iff.1 ht).1; omega))
        (List.getElem?_eq_getElem _) false t (hts i t ht) (hr t (List.mem_of_getElem? ht)))
    refine ⟨Takes.wrap ⟨.multi us, .arr ?_ ?_ ?_ ?_⟩ b (by simp), fun h w hf => ?_⟩
    · rw [hroom]; simpa using h1
    · rw [hroom]; exact h2
    · intro i hi
      rw [hroom, List.getElem?_eq_none (by omega), List.getElem?_eq_none (by simpa using hi)]
    · intro i t hi ht
      rw [hroom] at hi
      have := (List.getElem?_eq_some_iff.1 ht).1
      simp at hi; omega
    · have hf := hf.wrap_inv (by simp)
      cases hf with
      | @arr _ _ _ _ vs g1 g2 g3 g4 =>
        rw [hroom] at g1 g2
        have g1 : vs.length = ts.length := by simpa using g1
        rw [← hl, ← g1]
        exact .arr (p := p) (h3 h vs g1 g2)
      | undef _ h => rcases h with h | h <;> cases h
  | @map e v m kws hm hnd hk hkw ih =>
    intro rn t hw hr
    obtain ⟨b, kts, rfl, hperm, hts⟩ := hm.written hw
    have hr := hr.wrap_inv.map_inv
    have hnd' : (kts.map Prod.fst).Nodup := hperm.nodup_iff.2 hnd
    have hmem : ∀ k t, (k, t) ∈ kts → ∃ u w, mapLookup k (inp.mapAt m) = some u ∧ mapLookup k kws = some w := by
      intro k t hkt
      have : k ∈ (inp.mapAt m).map Prod.fst := hperm.mem_iff.1 (List.mem_map.2 ⟨_, hkt, rfl⟩)
      have h1 := (mapLookup_isSome k (inp.mapAt m)).2 this
      obtain ⟨u, hu⟩ := Option.isSome_iff_exists.1 h1
      rw [hk] at h1
      obtain ⟨w, hw⟩ := Option.isSome_iff_exists.1 h1
      exact ⟨u, w, hu, hw⟩
    have hel : ∀ k t, (k, t) ∈ kts → ∀ u, mapLookup k (inp.mapAt m) = some u → Takes c tc e .zero t ∧
        ∀ h w, Fills c tc (Shows c h) e .zero t w → Holds tc (!cfg.disableFreeze) inp (Same inp h) e u w := by
      intro k t hkt u hu
      obtain ⟨_, w, hu', hw⟩ := hmem k t hkt
      exact ih k u w hu hw false t (hts k t u hkt hu) (hr k t hkt)
    obtain ⟨kvs, h1, h2⟩ := choose_map (P := fun k t v => Fills c tc (fun _ t => Supported c t) e .zero t v) kts hnd'
      (fun k t hkt => by
        obtain ⟨u, w, hu, hw⟩ := hmem k t hkt
        exact (hel k t hkt u hu).1)
    refine ⟨Takes.wrap ⟨.map kvs, .map hnd' (fun k _ => rfl) ?_ ?_ ?_⟩ b (by simp), fun h w hf => ?_⟩
    · intro k t hkt
      obtain ⟨v, hv, -⟩ := h1 k t hkt
      rw [hv]; rfl
    · intro k t v hkt hv
      obtain ⟨v', hv', hf⟩ := h1 k t hkt
      rw [hv] at hv'; cases hv'
      exact hf
    · intro k hk; rw [h2 k hk]; rfl
    · have hf := hf.wrap_inv (by simp)
      cases hf with
      | @map _ _ _ kvs g1 g2 g3 g4 g5 =>
        refine .map hm hnd ?_ ?_
        · intro k
          by_cases hkm : k ∈ kts.map Prod.fst
          · obtain ⟨⟨k', t⟩, hkt, rfl⟩ := List.mem_map.1 hkm
            obtain ⟨u, _, hu, _⟩ := hmem k' t hkt
            rw [hu, g3 k' t hkt]; rfl
          · rw [g5 k hkm]
            have : ¬ (mapLookup k (inp.mapAt m)).isSome := fun h =>
              hkm (hperm.mem_iff.2 ((mapLookup_isSome k _).1 h))
            simp only [Bool.not_eq_true] at this
            rw [this]; rfl
        · intro k u w hu hw
          have hkm : k ∈ kts.map Prod.fst :=
            hperm.mem_iff.2 ((mapLookup_isSome k _).1 (by rw [hu]; rfl))
          obtain ⟨⟨k', t⟩, hkt, rfl⟩ := List.mem_map.1 hkm
          exact (hel k' t hkt u hu).2 h w (g4 k' t w hkt hw)
      | undefMap _ h => rcases h with h | h <;> cases h
      | undef _ h => rcases h with h | h <;> cases h
  | @strct id name a ws hl1 hl2 hfs _ ih =>
    intro rn t hw hr
    cases hw with
    | @strct _ _ _ kts hnd hkeys hts =>
    have hr := hr.obj_inv.wrap_inv.map_inv
    generalize hgs : (tc.types id).fields = gs at *
    have hset' : ∀ f ∈ gs, f.key ≠ none → f.exported = true := by rw [← hgs]; exact hset id
    -- where each entry goes
    have hkey := entry_field hl1 hl2 hfs hkeys hts
    have hfor : ∀ k t, (k, t) ∈ kts → ∀ i, FieldFor tc gs k i → FieldNamed gs k i := by
      intro k t hkt i hi
      obtain ⟨j, f, g, w, hn, _⟩ := hkey k t hkt
      rw [hi.unique (.inl hn)]; exact hn
    have hround : ∀ k t, (k, t) ∈ kts → ∀ (i : Nat) f g, FieldFor tc gs k i → (inp.fieldsAt a)[i]? = some f → gs[i]? = some g →
        Takes c tc g.ty .zero t ∧ ∀ h w, Fills c tc (Shows c h) g.ty .zero t w →
          Holds tc (!cfg.disableFreeze) inp (Same inp h) g.ty f.val w := by
      intro k t hkt i f g hi hf hg
      obtain ⟨j, f', g', w, hn, hf', hg', hw, hk, hwr⟩ := hkey k t hkt
      obtain rfl := hi.unique (.inl hn)
      rw [hf] at hf'; cases hf'
      rw [hg] at hg'; cases hg'
      exact ih i f g w k hf hg hw hn false t hwr (hr k t hkt)
    have hone : ∀ k t k' t' i, (k, t) ∈ kts → (k', t') ∈ kts → FieldFor tc gs k i → FieldFor tc gs k' i → k = k' ∧ t = t' := by
      intro k t k' t' i h1 h2 h3 h4
      obtain ⟨⟨g, hg, hk⟩, -⟩ := hfor k t h1 i h3
      obtain ⟨⟨g', hg', hk'⟩, -⟩ := hfor k' t' h2 i h4
      rw [hg] at hg'; cases hg'
      rw [hk] at hk'; cases hk'
      refine ⟨rfl, ?_⟩
      have := (nodup_lookup hnd h1).symm.trans (nodup_lookup hnd h2)
      simpa using this
    have hparts : TVal.parts gs.length .zero = List.replicate gs.length .zero := rfl
    have hz : ∀ (i : Nat) b, (List.replicate gs.length TVal.zero)[i]? = some b → b = .zero := by
      intro i b hb
      rw [List.getElem?_replicate] at hb
      split at hb <;> simp_all
    have hpw : kts.Pairwise (fun p q => ∀ i, FieldFor tc gs p.1 i → ¬ FieldFor tc gs q.1 i) := by
      have h0 : kts.Pairwise (fun p q => p.1 ≠ q.1) := by
        have := hnd
        unfold List.Nodup at this
        rwa [List.pairwise_map] at this
      refine (List.pairwise_iff_forall_sublist.2 ?_)
      intro p q hs i h1 h2
      have hp : p ∈ kts := hs.subset (by simp)
      have hq : q ∈ kts := hs.subset (by simp)
      exact (List.pairwise_iff_forall_sublist.1 h0 hs) (hone p.1 p.2 q.1 q.2 i hp hq h1 h2).1
    have hexp : ∀ k t (i : Nat) f, (k, t) ∈ kts → FieldFor tc gs k i → gs[i]? = some f → f.exported = true := by
      intro k t i f hkt hi hf
      obtain ⟨⟨g, hg, hk⟩, -⟩ := hfor k t hkt i hi
      rw [hf] at hg; cases hg
      exact hset' f (List.mem_of_getElem? hf) (by rw [hk]; simp)
    have hsup : ∀ k t, (k, t) ∈ kts → (∀ i, ¬ FieldFor tc gs k i) → Supported c t := by
      intro k t hkt hno
      obtain ⟨i, _, _, _, hn, _⟩ := hkey k t hkt
      exact absurd (.inl hn) (hno i)
    refine ⟨?_, fun h w hf => ?_⟩
    · obtain ⟨us, hul, hus⟩ := choose_list (α := TField) (β := TVal)
        (P := fun i f v => (∀ k t, (k, t) ∈ kts → FieldFor tc gs k i → Fills c tc (fun _ t => Supported c t) f.ty .zero t v) ∧
          ((∀ k, k ∈ kts.map Prod.fst → ¬ FieldFor tc gs k i) → v = .zero)) gs (by
        intro i g hg
        by_cases hex : ∃ k t, (k, t) ∈ kts ∧ FieldFor tc gs k i
        · obtain ⟨k, t, hkt, hi⟩ := hex
          have hil := (List.getElem?_eq_some_iff.1 hg).1
          obtain ⟨v, hv⟩ := (hround k t hkt i _ g hi (List.getElem?_eq_getElem (by omega)) hg).1
          refine ⟨v, ?_, ?_⟩
          · intro k' t' hkt' hi'
            obtain ⟨-, rfl⟩ := hone k t k' t' i hkt hkt' hi hi'
            exact hv
          · intro hno
            exact absurd hi (hno k (List.mem_map.2 ⟨_, hkt, rfl⟩))
        · exact ⟨.zero, fun k t hkt hi => absurd ⟨k, t, hkt, hi⟩ hex, fun _ => rfl⟩)
      refine ⟨.multi us, .obj hc (by simp) (Fills.wrap (.strct ?_ ?_ ?_ ?_ ?_ ?_ ?_) _ (by simp))⟩ <;> rw [hgs]
      · rw [hparts]; simp
      · exact hul
      · exact hpw
      · intro k t i f b v hkt hi hf hb hv
        rw [hparts] at hb
        rw [hz i b hb]
        exact (hus i f v hf hv).1 k t hkt hi
      · exact hexp
      · exact hsup
      · intro i hno
        rw [hparts, List.getElem?_replicate]
        by_cases hil : i < gs.length
        · rw [if_pos hil]
          have hu : us[i]? = some (us[i]'(by omega)) := List.getElem?_eq_getElem (by omega)
          rw [hu, (hus i _ _ (List.getElem?_eq_getElem hil) hu).2 hno]
        · rw [if_neg hil, List.getElem?_eq_none (by omega)]
    · have hf := (hf.obj_inv (by simp)).wrap_inv (by simp)
      cases hf with
      | @strct _ _ _ vs g1 g2 g3 g4 g5 g6 g7 =>
        rw [hgs] at g2 g4
        refine .strct (by rw [hgs]; exact hl1) (by rw [hgs]; exact g2) (by rw [hgs]; exact hfs) ?_
        rw [hgs]
        intro i f g w k hf hg hw hn
        have hk : k ∈ kts.map Prod.fst := by
          refine (hkeys k).2 ?_
          obtain ⟨⟨g', hg', hk⟩, -⟩ := hn
          rw [hg] at hg'; cases hg'
          refine List.mem_map.2 ⟨(k, f.val), ?_, rfl⟩
          unfold fieldEntries
          refine List.mem_filterMap.2 ⟨f, List.mem_of_getElem? hf, ?_⟩
          rw [effName_key (hfs i f g hf hg), hk]; rfl
        obtain ⟨⟨k', t⟩, hkt, rfl⟩ := List.mem_map.1 hk
        have hil := (List.getElem?_eq_some_iff.1 hg).1
        refine (hround k' t hkt i f g (.inl hn) hf hg).2 h w (g4 k' t i g .zero w hkt (.inl hn) hg ?_ hw)
        rw [hparts, List.getElem?_replicate, if_pos hil]
      | undef _ h => rcases h with h | h <;> cases h
  | nilptr =>
    intro rn t hw hr
    cases hw
    refine ⟨⟨.zero, .ref (by simp) (.undefPtr hc (.inl rfl))⟩, fun h w hf => ?_⟩
    have hf := hf.ref_inv (by simp)
    cases hf with
    | undefPtr => exact .nilptr
    | undef _ _ _ h => exact absurd rfl (h _)
  | @ptr b e a w hh he _ ih =>
    intro rn t hw hr
    have key : ∃ t', t = .ref t' ∧ Written cfg inp true (inp.cellAt a) t' := by
      cases hw with
      | ptrPerl h => rw [hh.notPerl] at h; cases h
      | ptr _ h => exact ⟨_, rfl, h⟩
      | ptrAgain => cases hr
      | ptrShare => cases hr
      | ptrOpen => cases hr
    obtain ⟨t', rfl, hw'⟩ := key
    have hht := hh.written hw'
    obtain ⟨⟨v, hv⟩, h2⟩ := ih true t' hw' hr.ref_inv
    refine ⟨⟨.ptr v, .ref (by simp) (hht.fills hc he hv)⟩, fun h w hf => ?_⟩
    obtain ⟨v, rfl, hfv⟩ := hht.fills_inv hc he (hf.ref_inv (by simp))
    exact .ptr hh he (h2 h v hfv)
  | marsh hz hu hn =>
    intro rn t hw hr
    have hz' : cfg.disableFreeze = false := by simpa using hz
    cases hw with
    | marshaler =>
      refine ⟨⟨_, .thaw hc hu hn⟩, fun h w hf => ?_⟩
      cases hf with
      | thaw => exact .marsh hz hu hn
      | undef _ h => rcases h with h | h <;> cases h
    | marshalerOff h => rw [hz'] at h; cases h
  | @marshPtr id b a cls data under u hz hu hn hcell =>
    intro rn t hw hr
    have hz' : cfg.disableFreeze = false := by simpa using hz
    have key : ∃ t', t = .ref t' ∧ Written cfg inp true (.marshaler cls (.ok data) under) t' := by
      cases hw with
      | ptrPerl h => rw [hcell] at h; cases h
      | ptr _ h => rw [hcell] at h; exact ⟨_, rfl, h⟩
      | ptrAgain => cases hr
      | ptrShare => cases hr
      | ptrOpen => cases hr
    obtain ⟨t', rfl, hw'⟩ := key
    cases hw' with
    | marshaler =>
      refine ⟨⟨_, .ref (by simp) (.thawPtr hc hu hn)⟩, fun h w hf => ?_⟩
      have hf := hf.ref_inv (by simp)
      cases hf with
      | thawPtr => exact .marshPtr hz hu hn hcell
      | undefPtr _ h => rcases h with h | h <;> cases h
      | undef _ h => rcases h with h | h <;> cases h
    | marshalerOff h => rw [hz'] at h; cases h

end Sereal
