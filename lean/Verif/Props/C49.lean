import Verif.Props.C47
import Verif.Proof.TypedSafe
/-
C49 to C52: decoding into typed variables: robustness, structs, slices and arrays, maps.
-/
namespace Sereal

/-! ### C49 -/

/-- C49.  For every input (with the exceptions of C13_partial), every type and every contents of the variable:
Unmarshal returns, with the new contents or with an error.
(The error `msg "unmodelled: ..."` stands for the code behind REFP and ALIAS in the place of a typed item and for
FREEZE into a non-nil interface, which the model does not cover.) -/
theorem C49_partial (cfg : DCfg) (tc : TCfg) (cs : Codecs) (b : Bytes) (ty : Ty) (cur : TVal)
    (hsane : SaneHeaderLength b) (hzl : SaneZlibSize b) :
    (∃ h v, unmarshalTyped cfg tc cs b ty cur = .ok (h, v)) ∨ ∃ er, unmarshalTyped cfg tc cs b ty cur = .error (.err er) :=
  unmarshalTyped_safe cfg tc cs b ty cur hsane hzl

/-! ### C50 -/

/-- Choice of contents for every variable in a list. -/
theorem choose_vars {P : Nat → TVal → Prop} (n : Nat) (h : ∀ i, i < n → ∃ v, P i v) :
    ∃ vs : List TVal, vs.length = n ∧ ∀ (i : Nat) v, vs[i]? = some v → P i v := by
  induction n with
  | zero => exact ⟨[], rfl, fun i v hv => by simp at hv⟩
  | succ n ih =>
    obtain ⟨vs, h1, h2⟩ := ih (fun i hi => h i (by omega))
    obtain ⟨v, hv⟩ := h n (by omega)
    refine ⟨vs ++ [v], by simp [h1], fun i w hw => ?_⟩
    by_cases hi : i < vs.length
    · rw [List.getElem?_append_left hi] at hw; exact h2 i w hw
    · rw [List.getElem?_append_right (by omega)] at hw
      have : i - vs.length = 0 := by
        have := (List.getElem?_eq_some_iff.1 hw).1
        simp at this; omega
      rw [this] at hw
      cases hw
      rw [show i = n by omega]; exact hv

/-- Entries that go to different fields. -/
def Apart (tc : TCfg) (fs : List TField) (kts : List (Bytes × Tree)) : Prop :=
  kts.Pairwise (fun p q => ∀ i, FieldFor tc fs p.1 i → ¬ FieldFor tc fs q.1 i)

theorem Apart.unique {tc : TCfg} {fs : List TField} {kts : List (Bytes × Tree)} (h : Apart tc fs kts) {k k' : Bytes}
    {t t' : Tree} {i : Nat} (h1 : (k, t) ∈ kts) (h2 : (k', t') ∈ kts) (f1 : FieldFor tc fs k i) (f2 : FieldFor tc fs k' i) :
    (k, t) = (k', t') := by
  induction h with
  | nil => cases h1
  | cons hx _ ih =>
    rcases List.mem_cons.1 h1 with e1 | m1
    · rcases List.mem_cons.1 h2 with e2 | m2
      · exact e1.trans e2.symm
      · have := hx _ m2 i; rw [← e1] at this; exact absurd f2 (this f1)
    · rcases List.mem_cons.1 h2 with e2 | m2
      · have := hx _ m1 i; rw [← e2] at this; exact absurd f1 (this f2)
      · exact ih m1 m2

/-- When a struct takes a hash. -/
theorem takes_struct {c : ViewCfg} {tc : TCfg} {id : Nat} {cur : TVal} {kts : List (Bytes × Tree)}
    (hcur : (cur.parts (tc.types id).fields.length).length = (tc.types id).fields.length)
    (hap : Apart tc (tc.types id).fields kts)
    (hin : ∀ k t (i : Nat) f x, (k, t) ∈ kts → FieldFor tc (tc.types id).fields k i → (tc.types id).fields[i]? = some f →
      (cur.parts (tc.types id).fields.length)[i]? = some x → f.exported = true ∧ Takes c tc f.ty x t)
    (hout : ∀ k t, (k, t) ∈ kts → (∀ i, ¬ FieldFor tc (tc.types id).fields k i) → Supported c t) :
    Takes c tc (.strct id) cur (.map kts) := by
  obtain ⟨vs, h1, h2⟩ := choose_vars (tc.types id).fields.length
    (P := fun i v => (∀ k t f x, (k, t) ∈ kts → FieldFor tc (tc.types id).fields k i →
      (tc.types id).fields[i]? = some f → (cur.parts (tc.types id).fields.length)[i]? = some x →
      Fills c tc (fun _ t => Supported c t) f.ty x t v) ∧
      ((∀ k, k ∈ kts.map Prod.fst → ¬ FieldFor tc (tc.types id).fields k i) →
        (cur.parts (tc.types id).fields.length)[i]? = some v))
    (by
      intro i hi
      have hx : ∃ x, (cur.parts (tc.types id).fields.length)[i]? = some x :=
        ⟨_, List.getElem?_eq_getElem (by omega)⟩
      have hf : ∃ f, (tc.types id).fields[i]? = some f := ⟨_, List.getElem?_eq_getElem hi⟩
      obtain ⟨x, hx⟩ := hx
      obtain ⟨f, hf⟩ := hf
      by_cases hex : ∃ k t, (k, t) ∈ kts ∧ FieldFor tc (tc.types id).fields k i
      · obtain ⟨k, t, hk, hfk⟩ := hex
        obtain ⟨_, v, hv⟩ := hin k t i f x hk hfk hf hx
        refine ⟨v, fun k' t' f' x' hk' hfk' hf' hx' => ?_, fun hno => ?_⟩
        · have e := hap.unique hk hk' hfk hfk'
          cases e
          rw [hf] at hf'; cases hf'
          rw [hx] at hx'; cases hx'
          exact hv
        · exact absurd hfk (hno k (List.mem_map.2 ⟨(k, t), hk, rfl⟩))
      · exact ⟨x, fun k t f' x' hk hfk => absurd ⟨k, t, hk, hfk⟩ hex, fun _ => hx⟩)
  refine ⟨.multi vs, .strct hcur h1 hap ?_ ?_ hout ?_⟩
  · intro k t i f x v hk hfk hf hx hv
    exact (h2 i v hv).1 k t f x hk hfk hf hx
  · intro k t i f hk hfk hf
    have hi := (List.getElem?_eq_some_iff.1 hf).1
    exact (hin k t i f _ hk hfk hf (List.getElem?_eq_getElem (by omega))).1
  · intro i hno
    by_cases hi : i < vs.length
    · rw [(h2 i vs[i] (List.getElem?_eq_getElem hi)).2 hno]
      exact List.getElem?_eq_getElem hi
    · rw [List.getElem?_eq_none (by omega), List.getElem?_eq_none (by omega)]

/-- C50 (missing: documents with REFP and ALIAS, and entries that go to one field).  A hash decoded into a struct variable, whatever it held: if the entries go to different fields, that can
be set and that the values fit, then Unmarshal succeeds; the value of each entry is decoded into the field for its
key; entries no field is for are dropped; fields that no entry is for keep their contents.
`w` tells whether the hash is behind a reference.  (`FieldFor`: the field tagged with the key or untagged and so named, else the same for the key in title case.) -/
theorem C50_partial (cfg : DCfg) (tc : TCfg) (cs : Codecs) (b : Bytes) (ver : Nat) (lenField suffix body : Bytes)
    (w : Bool) (kts : List (Bytes × Tree)) (j : Nat) (id : Nat) (cur : TVal) (hd : IsDoc b ver 0 lenField suffix body)
    (ht : Denotes goDialect (itemBuf ver (headBytes ver 0 lenField suffix) body).1
      (itemBuf ver (headBytes ver 0 lenField suffix) body).2 (refWrap w (.map kts)) j)
    (hr : NoRefs (.map kts)) (hcur : (cur.parts (tc.types id).fields.length).length = (tc.types id).fields.length)
    (hap : Apart tc (tc.types id).fields kts)
    (hin : ∀ k t (i : Nat) f x, (k, t) ∈ kts → FieldFor tc (tc.types id).fields k i → (tc.types id).fields[i]? = some f →
      (cur.parts (tc.types id).fields.length)[i]? = some x → f.exported = true ∧ Takes cfg.view tc f.ty x t)
    (hout : ∀ k t, (k, t) ∈ kts → (∀ i, ¬ FieldFor tc (tc.types id).fields k i) → Supported cfg.view t) :
    ∃ h vs, unmarshalTyped cfg tc cs b (.strct id) cur = .ok (h, .multi vs) ∧
      vs.length = (tc.types id).fields.length ∧
      (∀ k t (i : Nat) f x v, (k, t) ∈ kts → FieldFor tc (tc.types id).fields k i → (tc.types id).fields[i]? = some f →
        (cur.parts (tc.types id).fields.length)[i]? = some x → vs[i]? = some v →
        Fills cfg.view tc (Shows cfg.view h) f.ty x t v) ∧
      (∀ i : Nat, (∀ k, k ∈ kts.map Prod.fst → ¬ FieldFor tc (tc.types id).fields k i) →
        vs[i]? = (cur.parts (tc.types id).fields.length)[i]?) := by
  have htk := takes_struct hcur hap hin hout
  obtain ⟨h, v, h1, h2⟩ := unmarshalTyped_complete (cfg := cfg) (tc := tc) (bodyInput_raw (cs := cs) hd) hd.buf_lt ht (hr.wrap w) (htk.wrap w (by simp))
  have h2 := h2.wrap_inv (by simp)
  cases h2 with
  | strct a1 a2 a3 a4 a5 a6 a7 => exact ⟨h, _, h1, a2, a4, a7⟩
  | undef _ h => rcases h with h | h <;> cases h

/-- type P struct { X int; Y string `sereal:"why"` } -/
def pairTypes : TCfg :=
  { noFloats with
    title := fun k => if k = [120] then [88] else k
    types := fun _ => ⟨[⟨[88], [], true, .int .int⟩, ⟨[89], [119, 104, 121], true, .str⟩], none⟩ }

/-- {"x": 7, "z": 1} in version 3. -/
def docXZ : Bytes := [0x3d, 0xf3, 0x72, 0x6c, 3, 0, 0x52, 0x61, 120, 7, 0x61, 122, 1]

def pairIn : Res (Heap × TVal) → Option (Int × Bytes)
  | .ok (_, .multi [.int i, .str s]) => some (i.toInt, s)
  | _ => none

/-- The entry "x" goes to field X, "z" is dropped, Y keeps its contents. -/
example : pairIn (unmarshalTyped {} pairTypes noCodecs docXZ (.strct 0) (.multi [.int 5, .str [104]])) =
    some (7, [104]) := by decide +kernel

/-! ### C51 -/

/-- An array read into a slice variable should leave all its elements there. -/
def SlicesGetAll : Prop :=
  ∀ (cfg : DCfg) (tc : TCfg) (cs : Codecs) (b : Bytes) (ver : Nat) (lenField suffix body : Bytes) (w : Bool) (ts : List Tree)
    (j : Nat) (e : Ty) (cur : TVal) (h : Heap) (v : TVal), IsDoc b ver 0 lenField suffix body →
    Denotes goDialect (itemBuf ver (headBytes ver 0 lenField suffix) body).1
      (itemBuf ver (headBytes ver 0 lenField suffix) body).2 (refWrap w (.arr ts)) j →
    NoRefs (.arr ts) → unmarshalTyped cfg tc cs b (.slice e) cur = .ok (h, v) →
    ∃ vs, v = .slice vs ∧ vs.length = ts.length

/-- C51 for a nil or empty slice: Unmarshal makes a slice of the right length and decodes each element of the
document into its own new variable.  Missing for the full claim: slices that are not empty, see C51_kept. -/
theorem C51_partial (cfg : DCfg) (tc : TCfg) (cs : Codecs) (b : Bytes) (ver : Nat) (lenField suffix body : Bytes)
    (w : Bool) (ts : List Tree) (j : Nat) (e : Ty) (cur : TVal) (hd : IsDoc b ver 0 lenField suffix body)
    (ht : Denotes goDialect (itemBuf ver (headBytes ver 0 lenField suffix) body).1
      (itemBuf ver (headBytes ver 0 lenField suffix) body).2 (refWrap w (.arr ts)) j)
    (hr : NoRefs (.arr ts)) (hcur : cur.elems = []) (hts : ∀ t ∈ ts, Takes cfg.view tc e .zero t) :
    ∃ h vs, unmarshalTyped cfg tc cs b (.slice e) cur = .ok (h, .slice vs) ∧ vs.length = ts.length ∧
      ∀ (i : Nat) t v, ts[i]? = some t → vs[i]? = some v → Fills cfg.view tc (Shows cfg.view h) e .zero t v := by
  have hroom : cur.room ts.length = List.replicate ts.length .zero := by unfold TVal.room; rw [if_pos hcur]
  have htk : Takes cfg.view tc (.slice e) cur (.arr ts) := by
    obtain ⟨vs, h1, h2⟩ := choose_vars ts.length
      (P := fun i v => ∀ t, ts[i]? = some t → Fills cfg.view tc (fun _ t => Supported cfg.view t) e .zero t v)
      (by
        intro i hi
        obtain ⟨v, hv⟩ := hts ts[i] (List.getElem_mem hi)
        refine ⟨v, fun t ht => ?_⟩
        rw [List.getElem?_eq_getElem hi] at ht; cases ht; exact hv)
    refine ⟨.slice vs, .slice ?_ ?_ ?_ ?_⟩
    · rw [hroom, List.length_replicate, h1]
    · intro i t x v ht hx hv
      rw [hroom] at hx
      obtain rfl : x = .zero := by
        rw [List.getElem?_replicate] at hx
        split at hx <;> cases hx
        rfl
      exact h2 i v hv t ht
    · intro i hi
      rw [hroom, List.getElem?_eq_none (by omega), List.getElem?_eq_none (by simp; omega)]
    · intro i t hi ht
      rw [hroom, List.length_replicate] at hi
      rw [List.getElem?_eq_none hi] at ht; cases ht
  obtain ⟨h, v, h1, h2⟩ := unmarshalTyped_complete (cfg := cfg) (tc := tc) (bodyInput_raw (cs := cs) hd) hd.buf_lt ht (hr.wrap w) (htk.wrap w (by simp))
  have h2 := h2.wrap_inv (by simp)
  cases h2 with
  | slice a1 a2 a3 a4 =>
    refine ⟨h, _, h1, by rw [a1, hroom, List.length_replicate], fun i t v ht hv => ?_⟩
    refine a2 i t .zero v ht ?_ hv
    rw [hroom, List.getElem?_replicate, if_pos (List.getElem?_eq_some_iff.1 ht).1]
  | undefSlice _ h => rcases h with h | h <;> cases h
  | undef _ h => rcases h with h | h <;> cases h

/-- A slice that is not empty keeps its length: elements of the document that find no room are dropped, elements
of the slice that the document has nothing for stay. -/
theorem C51_kept (cfg : DCfg) (tc : TCfg) (cs : Codecs) (b : Bytes) (ver : Nat) (lenField suffix body : Bytes)
    (w : Bool) (ts : List Tree) (j : Nat) (e : Ty) (xs : List TVal) (hd : IsDoc b ver 0 lenField suffix body)
    (ht : Denotes goDialect (itemBuf ver (headBytes ver 0 lenField suffix) body).1
      (itemBuf ver (headBytes ver 0 lenField suffix) body).2 (refWrap w (.arr ts)) j)
    (hr : NoRefs (.arr ts)) (hne : xs ≠ [])
    (hts : ∀ (i : Nat) t x, ts[i]? = some t → xs[i]? = some x → Takes cfg.view tc e x t)
    (hsup : ∀ (i : Nat) t, xs.length ≤ i → ts[i]? = some t → Supported cfg.view t) :
    ∃ h vs, unmarshalTyped cfg tc cs b (.slice e) (.slice xs) = .ok (h, .slice vs) ∧ vs.length = xs.length ∧
      (∀ (i : Nat) t x v, ts[i]? = some t → xs[i]? = some x → vs[i]? = some v →
        Fills cfg.view tc (Shows cfg.view h) e x t v) ∧ ∀ i : Nat, ts.length ≤ i → vs[i]? = xs[i]? := by
  have hroom : (TVal.slice xs).room ts.length = xs := by unfold TVal.room TVal.elems; rw [if_neg hne]
  have htk : Takes cfg.view tc (.slice e) (.slice xs) (.arr ts) := by
    obtain ⟨vs, h1, h2⟩ := choose_vars xs.length
      (P := fun i v => (∀ t x, ts[i]? = some t → xs[i]? = some x →
        Fills cfg.view tc (fun _ t => Supported cfg.view t) e x t v) ∧ (ts.length ≤ i → xs[i]? = some v))
      (by
        intro i hi
        by_cases hit : i < ts.length
        · obtain ⟨v, hv⟩ := hts i ts[i] xs[i] (List.getElem?_eq_getElem hit) (List.getElem?_eq_getElem hi)
          refine ⟨v, fun t x ht hx => ?_, fun h => by omega⟩
          rw [List.getElem?_eq_getElem hit] at ht; cases ht
          rw [List.getElem?_eq_getElem hi] at hx; cases hx
          exact hv
        · refine ⟨xs[i], fun t x ht => ?_, fun _ => List.getElem?_eq_getElem hi⟩
          rw [List.getElem?_eq_none (by omega)] at ht; cases ht)
    refine ⟨.slice vs, .slice (by rw [hroom, h1]) ?_ ?_ ?_⟩
    · intro i t x v ht hx hv
      rw [hroom] at hx
      exact (h2 i v hv).1 t x ht hx
    · intro i hi
      rw [hroom]
      by_cases hiv : i < vs.length
      · rw [List.getElem?_eq_getElem hiv, (h2 i vs[i] (List.getElem?_eq_getElem hiv)).2 hi]
      · rw [List.getElem?_eq_none (by omega), List.getElem?_eq_none (by omega)]
    · intro i t hi ht
      rw [hroom] at hi
      exact hsup i t hi ht
  obtain ⟨h, v, h1, h2⟩ := unmarshalTyped_complete (cfg := cfg) (tc := tc) (bodyInput_raw (cs := cs) hd) hd.buf_lt ht (hr.wrap w) (htk.wrap w (by simp))
  have h2 := h2.wrap_inv (by simp)
  cases h2 with
  | slice a1 a2 a3 a4 =>
    rw [hroom] at a1 a2 a3 a4
    exact ⟨h, _, h1, a1, a2, a3⟩
  | undefSlice _ h => rcases h with h | h <;> cases h
  | undef _ h => rcases h with h | h <;> cases h

/-- [1, 2, 3] in version 3. -/
def doc123 : Bytes := [0x3d, 0xf3, 0x72, 0x6c, 3, 0, 0x43, 1, 2, 3]

theorem doc123_isDoc : IsDoc doc123 3 0 [0] [] [0x43, 1, 2, 3] where
  eq := by decide
  version := by omega
  doctype := by omega
  varint := by simp [IsVarint]
  short := by simp
  len := by decide
  size := by decide

def intsIn : Res (Heap × TVal) → Option (List Int)
  | .ok (_, .slice vs) => vs.mapM fun v => match v with
    | .int i => some i.toInt
    | _ => none
  | _ => none

theorem doc123_denotes : Denotes goDialect (itemBuf 3 (headBytes 3 0 [0] []) [0x43, 1, 2, 3]).1
    (itemBuf 3 (headBytes 3 0 [0] []) [0x43, 1, 2, 3]).2 (refWrap true (.arr [.int 1, .int 2, .int 3])) 5 :=
  ⟨_, .plain (i := 1) (.here rfl (by decide)) (by decide) (.arrayref (n := 3)
    (.itemsCons (.plain (.here rfl (by decide)) (by decide) (.int (n := 1)))
      (.itemsCons (.plain (.here rfl (by decide)) (by decide) (.int (n := 2)))
        (.itemsCons (.plain (.here rfl (by decide)) (by decide) (.int (n := 3))) .itemsNil))))⟩

/-- Non-vacuity of C51_partial. -/
example : intsIn (unmarshalTyped {} noFloats noCodecs doc123 (.slice (.int .int8)) .zero) = some [1, 2, 3] := by
  decide +kernel

/-- C51 is false: a slice of length 2 receives two of the three elements, and there is no error. -/
theorem C51_fails : ¬ SlicesGetAll := by
  intro H
  have e : intsIn (unmarshalTyped {} noFloats noCodecs doc123 (.slice (.int .int8)) (.slice [.int 8, .int 9])) =
      some [1, 2] := by decide +kernel
  cases u : unmarshalTyped {} noFloats noCodecs doc123 (.slice (.int .int8)) (.slice [.int 8, .int 9]) with
  | error x => rw [u] at e; cases e
  | ok p =>
    obtain ⟨h, v⟩ := p
    obtain ⟨vs, rfl, hl⟩ := H {} noFloats noCodecs doc123 3 [0] [] [0x43, 1, 2, 3] true _ 5 (.int .int8) _ h v
      doc123_isDoc doc123_denotes (.arr (by simp; exact ⟨.int, .int, .int⟩)) u
    rw [u] at e
    have hlen : ∀ (vs : List TVal) (is : List Int) (f : TVal → Option Int), vs.mapM f = some is → vs.length = is.length := by
      intro vs
      induction vs with
      | nil => intro is f h; simp at h; subst h; rfl
      | cons v vs ih =>
        intro is f h
        rw [List.mapM_cons] at h
        cases hf : f v with
        | none => rw [hf] at h; cases h
        | some i =>
          rw [hf] at h
          cases hm : vs.mapM f with
          | none => rw [hm] at h; cases h
          | some js =>
            rw [hm] at h; cases h
            simp [ih js f hm]
    have := hlen _ _ _ e
    simp at this hl
    omega

/-! ### C52 -/

/-- C52 for keys the map does not have yet, all different: Unmarshal succeeds, each entry is decoded into a new
variable and added, the other entries stay.  Missing for the full claim: keys that are there already or occur
twice, see C52_fails. -/
theorem C52_partial (cfg : DCfg) (tc : TCfg) (cs : Codecs) (b : Bytes) (ver : Nat) (lenField suffix body : Bytes)
    (w : Bool) (kts : List (Bytes × Tree)) (j : Nat) (e : Ty) (cur : TVal) (hd : IsDoc b ver 0 lenField suffix body)
    (ht : Denotes goDialect (itemBuf ver (headBytes ver 0 lenField suffix) body).1
      (itemBuf ver (headBytes ver 0 lenField suffix) body).2 (refWrap w (.map kts)) j)
    (hr : NoRefs (.map kts)) (hnd : (kts.map Prod.fst).Nodup)
    (hnew : ∀ k, k ∈ kts.map Prod.fst → mapLookup k cur.entries = none)
    (hts : ∀ k t, (k, t) ∈ kts → Takes cfg.view tc e .zero t) :
    ∃ h kvs, unmarshalTyped cfg tc cs b (.map e) cur = .ok (h, .map kvs) ∧
      (∀ k t, (k, t) ∈ kts → ∃ v, mapLookup k kvs = some v ∧ Fills cfg.view tc (Shows cfg.view h) e .zero t v) ∧
      ∀ k, k ∉ kts.map Prod.fst → mapLookup k kvs = mapLookup k cur.entries := by
  have htk : Takes cfg.view tc (.map e) cur (.map kts) := by
    have : ∃ kvs : List (Bytes × TVal), (∀ k t, (k, t) ∈ kts → (mapLookup k kvs).isSome) ∧
        (∀ k t v, (k, t) ∈ kts → mapLookup k kvs = some v →
          Fills cfg.view tc (fun _ t => Supported cfg.view t) e .zero t v) ∧
        ∀ k, k ∉ kts.map Prod.fst → mapLookup k kvs = mapLookup k cur.entries := by
      clear ht hr hnew
      induction kts with
      | nil => exact ⟨cur.entries, by simp, by simp, by simp⟩
      | cons p kts ih =>
        obtain ⟨k0, t0⟩ := p
        obtain ⟨hn0, hn1⟩ := List.nodup_cons.1 hnd
        obtain ⟨kvs, i1, i2, i3⟩ := ih hn1 (fun k t h => hts k t (List.mem_cons_of_mem _ h))
        obtain ⟨v0, hv0⟩ := hts k0 t0 (List.mem_cons_self ..)
        have hne : ∀ k t, (k, t) ∈ kts → k ≠ k0 := by
          rintro k t hk rfl
          exact hn0 (List.mem_map.2 ⟨(k, t), hk, rfl⟩)
        refine ⟨(k0, v0) :: kvs, ?_, ?_, ?_⟩
        · intro k t hk
          simp only [mapLookup]
          split
          · rfl
          · rename_i hkk
            rcases List.mem_cons.1 hk with he | hk
            · cases he; exact absurd rfl hkk
            · exact i1 k t hk
        · intro k t v hk hv
          simp only [mapLookup] at hv
          rcases List.mem_cons.1 hk with he | hk
          · cases he
            rw [if_pos rfl] at hv; cases hv; exact hv0
          · rw [if_neg (fun h => hne k t hk h.symm)] at hv
            exact i2 k t v hk hv
        · intro k hk
          simp only [List.map_cons, List.mem_cons, not_or] at hk
          simp only [mapLookup]
          rw [if_neg (fun h => hk.1 h.symm)]
          exact i3 k hk.2
    obtain ⟨kvs, i1, i2, i3⟩ := this
    exact ⟨.map kvs, .map hnd hnew i1 i2 i3⟩
  obtain ⟨h, v, h1, h2⟩ := unmarshalTyped_complete (cfg := cfg) (tc := tc) (bodyInput_raw (cs := cs) hd) hd.buf_lt ht
    (hr.wrap w) (htk.wrap w (by simp))
  have h2 := h2.wrap_inv (by simp)
  cases h2 with
  | map a1 a2 a3 a4 a5 =>
    refine ⟨h, _, h1, fun k t hk => ?_, a5⟩
    obtain ⟨v, hv⟩ := Option.isSome_iff_exists.1 (a3 k t hk)
    exact ⟨v, hv, a4 k t v hk hv⟩
  | undefMap _ h => rcases h with h | h <;> cases h
  | undef _ h => rcases h with h | h <;> cases h

/-- {"a": 1} in version 3. -/
def docA1 : Bytes := [0x3d, 0xf3, 0x72, 0x6c, 3, 0, 0x51, 0x61, 97, 1]

def entriesIn : Res (Heap × TVal) → Option (List (Bytes × Int))
  | .ok (_, .map kvs) => kvs.mapM fun p => match p.2 with
    | .int i => some (p.1, i.toInt)
    | _ => none
  | _ => none

/-- Non-vacuity: {"a": 1} joins {"b": 2}; and C52 is false if the key is there already: Unmarshal fails
(reflect.Value.MapIndex gives a value that cannot be set). -/
theorem C52_fails :
    entriesIn (unmarshalTyped {} noFloats noCodecs docA1 (.map (.int .int)) (.map [([98], .int 2)])) =
      some [([98], 2), ([97], 1)] ∧
    (unmarshalTyped {} noFloats noCodecs docA1 (.map (.int .int)) (.map [([97], .int 2)])).isOk = false := by
  decide +kernel

end Sereal
