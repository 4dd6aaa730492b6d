import Verif.Props.C49
import Verif.Proof.SimDecode
/-
C42, C47 and C50 to C52 in the model with addresses (Model/TypedMem).

`Owned t B mem` and `Depicts tc mem ty B w cur` say what the variable holds before the call: `cur`, none of it shared.
`Became tc t B mem mem' v` says that it holds `v` afterwards, that a pointer, a map or a slice with elements is the same as before
(if it is not nil now), and that nothing else has changed.
-/
namespace Sereal

section
variable {tc : TCfg} {mem : Mem} {B : Nat → Prop} {l : Spot} {cur : TVal}

theorem depicts_parts_length {id : Nat} {w : MVal} (h : Depicts tc mem (.strct id) B w cur) :
    (cur.parts (tc.types id).fields.length).length = (tc.types id).fields.length := by
  cases h with
  | zero => simp [TVal.parts]
  | thawed => simp [TVal.parts]
  | strct P h1 => exact h1

/-- C42 for a signed variable in memory. -/
theorem C42_mem (cfg : DCfg) (tc : TCfg) (cs : Codecs) (b : Bytes) (ver : Nat) (lenField suffix body : Bytes) (z : Int)
    (j : Nat) (k : IntK) (mem : Mem) (B : Nat → Prop) (l : Spot) (cur : TVal) (hd : IsDoc b ver 0 lenField suffix body)
    (hz : Denotes goDialect (itemBuf ver (headBytes ver 0 lenField suffix) body).1
      (itemBuf ver (headBytes ver 0 lenField suffix) body).2 (.int z) j)
    (ho : Owned { ty := .int k, place := .var l } B mem) (hm : Depicts tc mem (.int k) B (mem.get l) cur) :
    ∃ h n mem', unmarshalInto cfg tc cs b (.int k) l mem = .ok (h, mem') ∧
      Became tc { ty := .int k, place := .var l } B mem mem' (.int n) ∧
      -2 ^ (k.width - 1) ≤ n.toInt ∧ n.toInt < 2 ^ (k.width - 1) ∧ (2 ^ k.width : Int) ∣ n.toInt - z ∧
      (-2 ^ (k.width - 1) ≤ z → z < 2 ^ (k.width - 1) → n.toInt = z) := by
  obtain ⟨h, n, h1, h2⟩ := C42 cfg tc cs b ver lenField suffix body z j k cur hd hz
  obtain ⟨mem', h3, h4⟩ := unmarshalInto_follows ho hm h1
  exact ⟨h, n, mem', h3, h4, h2⟩

/-- C42 for an unsigned variable in memory. -/
theorem C42_unsigned_mem (cfg : DCfg) (tc : TCfg) (cs : Codecs) (b : Bytes) (ver : Nat) (lenField suffix body : Bytes) (z : Int)
    (j : Nat) (k : UintK) (mem : Mem) (B : Nat → Prop) (l : Spot) (cur : TVal) (hd : IsDoc b ver 0 lenField suffix body)
    (hz : Denotes goDialect (itemBuf ver (headBytes ver 0 lenField suffix) body).1
      (itemBuf ver (headBytes ver 0 lenField suffix) body).2 (.int z) j)
    (ho : Owned { ty := .uint k, place := .var l } B mem) (hm : Depicts tc mem (.uint k) B (mem.get l) cur) :
    ∃ h n mem', unmarshalInto cfg tc cs b (.uint k) l mem = .ok (h, mem') ∧
      Became tc { ty := .uint k, place := .var l } B mem mem' (.uint n) ∧
      n.toNat < 2 ^ k.width ∧ (2 ^ k.width : Int) ∣ n.toNat - z ∧ (0 ≤ z → z < 2 ^ k.width → (n.toNat : Int) = z) := by
  obtain ⟨h, n, h1, h2⟩ := C42_unsigned cfg tc cs b ver lenField suffix body z j k cur hd hz
  obtain ⟨mem', h3, h4⟩ := unmarshalInto_follows ho hm h1
  exact ⟨h, n, mem', h3, h4, h2⟩

/-- C47 in memory: the variable is one that holds its zero value. -/
theorem C47_mem (cfg : ECfg) (dcfg : DCfg) (tc : TCfg) (cs : Codecs) (inp : Heap) (header : Option Val) (v : Val)
    (ty : Ty) (w0 : TVal) (doc : Bytes) (mem : Mem) (l : Spot) (hver : cfg.version ≤ 3) (hord : ∀ n ks, (cfg.ord n ks).Perm ks)
    (hc : cfg.compression = none) (hpc : dcfg.perlCompat = false) (hset : Settable tc) (hfl : Faithful tc)
    (hty : NoPtr ty) (htys : ∀ id, ∀ f ∈ (tc.types id).fields, NoPtr f.ty)
    (H : Holds tc (!cfg.disableFreeze) inp (fun v _ => ∃ n, Plain n inp v) ty v w0)
    (h : marshalWithHeader cfg cs inp header v = .ok doc) (hsz : doc.length ≤ 2 ^ 31 - 1)
    (hl : l.InRange) (hb : l.base < mem.next) (hz : mem.get l = .zero) :
    ∃ h' w mem', unmarshalInto dcfg tc cs doc ty l mem = .ok (h', mem') ∧
      Holds tc (!cfg.disableFreeze) inp (Same inp h') ty v w ∧
      Became tc { ty := ty, place := .var l } (fun _ => False) mem mem' w := by
  obtain ⟨h', w, h1, h2⟩ := C47 cfg dcfg tc cs inp header v ty w0 doc hver hord hc hpc hset hfl hty htys H h hsz
  obtain ⟨mem', h3, h4⟩ := unmarshalInto_follows (l := l) (mem := mem) (B := fun _ => False)
    ⟨fun l' hl' => (by cases hl'; exact ⟨hl, hb, id⟩), fun b hb => hb.elim⟩ (by rw [hz]; exact .zero) h1
  exact ⟨h', w, mem', h3, h2, h4⟩

/-- C50 in memory (missing: as for C50_partial, and variables part of which is shared). -/
theorem C50_mem_partial (cfg : DCfg) (tc : TCfg) (cs : Codecs) (b : Bytes) (ver : Nat) (lenField suffix body : Bytes)
    (w : Bool) (kts : List (Bytes × Tree)) (j : Nat) (id : Nat) (mem : Mem) (B : Nat → Prop) (l : Spot) (cur : TVal)
    (hd : IsDoc b ver 0 lenField suffix body)
    (ht : Denotes goDialect (itemBuf ver (headBytes ver 0 lenField suffix) body).1
      (itemBuf ver (headBytes ver 0 lenField suffix) body).2 (refWrap w (.map kts)) j)
    (hr : NoRefs (.map kts)) (hap : Apart tc (tc.types id).fields kts)
    (hin : ∀ k t (i : Nat) f x, (k, t) ∈ kts → FieldFor tc (tc.types id).fields k i → (tc.types id).fields[i]? = some f →
      (cur.parts (tc.types id).fields.length)[i]? = some x → f.exported = true ∧ Takes cfg.view tc f.ty x t)
    (hout : ∀ k t, (k, t) ∈ kts → (∀ i, ¬ FieldFor tc (tc.types id).fields k i) → Supported cfg.view t)
    (ho : Owned { ty := .strct id, place := .var l } B mem) (hm : Depicts tc mem (.strct id) B (mem.get l) cur) :
    ∃ h vs mem', unmarshalInto cfg tc cs b (.strct id) l mem = .ok (h, mem') ∧
      Became tc { ty := .strct id, place := .var l } B mem mem' (.multi vs) ∧
      vs.length = (tc.types id).fields.length ∧
      (∀ k t (i : Nat) f x v, (k, t) ∈ kts → FieldFor tc (tc.types id).fields k i → (tc.types id).fields[i]? = some f →
        (cur.parts (tc.types id).fields.length)[i]? = some x → vs[i]? = some v →
        Fills cfg.view tc (Shows cfg.view h) f.ty x t v) ∧
      (∀ i : Nat, (∀ k, k ∈ kts.map Prod.fst → ¬ FieldFor tc (tc.types id).fields k i) →
        vs[i]? = (cur.parts (tc.types id).fields.length)[i]?) := by
  obtain ⟨h, vs, h1, h2⟩ := C50_partial cfg tc cs b ver lenField suffix body w kts j id cur hd ht hr (depicts_parts_length hm) hap hin hout
  obtain ⟨mem', h3, h4⟩ := unmarshalInto_follows ho hm h1
  exact ⟨h, vs, mem', h3, h4, h2⟩

/-- C50 for a variable of type pointer to struct that is not nil: the struct it points at is filled, and the pointer stays as it is. -/
theorem C50_pointer_mem_partial (cfg : DCfg) (tc : TCfg) (cs : Codecs) (b : Bytes) (ver : Nat) (lenField suffix body : Bytes)
    (w : Bool) (kts : List (Bytes × Tree)) (j : Nat) (id : Nat) (mem : Mem) (B : Nat → Prop) (l : Spot) (a : Nat) (cur : TVal)
    (hd : IsDoc b ver 0 lenField suffix body)
    (ht : Denotes goDialect (itemBuf ver (headBytes ver 0 lenField suffix) body).1
      (itemBuf ver (headBytes ver 0 lenField suffix) body).2 (refWrap w (.map kts)) j)
    (hr : NoRefs (.map kts)) (hap : Apart tc (tc.types id).fields kts)
    (hin : ∀ k t (i : Nat) f x, (k, t) ∈ kts → FieldFor tc (tc.types id).fields k i → (tc.types id).fields[i]? = some f →
      (cur.parts (tc.types id).fields.length)[i]? = some x → f.exported = true ∧ Takes cfg.view tc f.ty x t)
    (hout : ∀ k t, (k, t) ∈ kts → (∀ i, ¬ FieldFor tc (tc.types id).fields k i) → Supported cfg.view t)
    (ho : Owned { ty := .ptr (.strct id), place := .var l } B mem) (hp : mem.get l = .ptr ⟨a, []⟩)
    (hm : Depicts tc mem (.ptr (.strct id)) B (mem.get l) (.ptr cur)) :
    ∃ h vs mem' B', unmarshalInto cfg tc cs b (.ptr (.strct id)) l mem = .ok (h, mem') ∧
      mem'.get l = .ptr ⟨a, []⟩ ∧ Depicts tc mem' (.strct id) B' (mem'.get ⟨a, []⟩) (.multi vs) ∧
      Became tc { ty := .ptr (.strct id), place := .var l } B mem mem' (.ptr (.multi vs)) ∧
      vs.length = (tc.types id).fields.length ∧
      (∀ k t (i : Nat) f x v, (k, t) ∈ kts → FieldFor tc (tc.types id).fields k i → (tc.types id).fields[i]? = some f →
        (cur.parts (tc.types id).fields.length)[i]? = some x → vs[i]? = some v →
        Fills cfg.view tc (Shows cfg.view h) f.ty x t v) ∧
      (∀ i : Nat, (∀ k, k ∈ kts.map Prod.fst → ¬ FieldFor tc (tc.types id).fields k i) →
        vs[i]? = (cur.parts (tc.types id).fields.length)[i]?) := by
  have hlen : (cur.parts (tc.types id).fields.length).length = (tc.types id).fields.length := by
    generalize mem.get l = w at hm
    cases hm with
    | ptr P _ _ h => exact depicts_parts_length h
  obtain ⟨v, hv⟩ := takes_struct hlen hap hin hout
  have htk : Takes cfg.view tc (.ptr (.strct id)) (.ptr cur) (.map kts) := ⟨_, .ptr .strct hv⟩
  obtain ⟨h, v, h1, h2⟩ := unmarshalTyped_complete (cfg := cfg) (tc := tc) (bodyInput_raw (cs := cs) hd) hd.buf_lt ht (hr.wrap w) (htk.wrap w (by simp))
  replace h2 := h2.wrap_inv (by simp)
  obtain ⟨mem', h3, h4⟩ := unmarshalInto_follows ho hm h1
  cases h2 with
  | ptr _ h5 =>
    cases h5 with
    | strct a1 a2 a3 a4 a5 a6 a7 =>
      have e : mem'.get l = .ptr ⟨a, []⟩ := by
        rcases h4.stays trivial (by show (mem.get l).isHandle; rw [hp]; trivial) with h | h
        · cases h
        · exact (show mem'.get l = mem.get l from h).trans hp
      obtain ⟨B', -, hB⟩ := h4.holds
      have hB : Depicts tc mem' (.ptr (.strct id)) B' (mem'.get l) _ := hB
      rw [e] at hB
      cases hB with
      | ptr P _ _ hB => exact ⟨h, _, mem', P, h3, e, hB, h4, a2, a4, a7⟩
    | undef _ h => rcases h with h | h <;> cases h
  | undefPtr _ h => rcases h with h | h <;> cases h
  | undef _ h => rcases h with h | h <;> cases h

/-- C51 in memory for a nil or empty slice (missing: as for C51_partial, and variables part of which is shared). -/
theorem C51_mem_partial (cfg : DCfg) (tc : TCfg) (cs : Codecs) (b : Bytes) (ver : Nat) (lenField suffix body : Bytes)
    (w : Bool) (ts : List Tree) (j : Nat) (e : Ty) (mem : Mem) (B : Nat → Prop) (l : Spot) (cur : TVal)
    (hd : IsDoc b ver 0 lenField suffix body)
    (ht : Denotes goDialect (itemBuf ver (headBytes ver 0 lenField suffix) body).1
      (itemBuf ver (headBytes ver 0 lenField suffix) body).2 (refWrap w (.arr ts)) j)
    (hr : NoRefs (.arr ts)) (hcur : cur.elems = []) (hts : ∀ t ∈ ts, Takes cfg.view tc e .zero t)
    (ho : Owned { ty := .slice e, place := .var l } B mem) (hm : Depicts tc mem (.slice e) B (mem.get l) cur) :
    ∃ h vs mem', unmarshalInto cfg tc cs b (.slice e) l mem = .ok (h, mem') ∧
      Became tc { ty := .slice e, place := .var l } B mem mem' (.slice vs) ∧ vs.length = ts.length ∧
      ∀ (i : Nat) t v, ts[i]? = some t → vs[i]? = some v → Fills cfg.view tc (Shows cfg.view h) e .zero t v := by
  obtain ⟨h, vs, h1, h2⟩ := C51_partial cfg tc cs b ver lenField suffix body w ts j e cur hd ht hr hcur hts
  obtain ⟨mem', h3, h4⟩ := unmarshalInto_follows ho hm h1
  exact ⟨h, vs, mem', h3, h4, h2⟩

/-- A slice in memory that is not empty: it stays the same slice of the same array; its elements are decoded into. -/
theorem C51_kept_mem (cfg : DCfg) (tc : TCfg) (cs : Codecs) (b : Bytes) (ver : Nat) (lenField suffix body : Bytes)
    (w : Bool) (ts : List Tree) (j : Nat) (e : Ty) (mem : Mem) (B : Nat → Prop) (l : Spot) (xs : List TVal)
    (hd : IsDoc b ver 0 lenField suffix body)
    (ht : Denotes goDialect (itemBuf ver (headBytes ver 0 lenField suffix) body).1
      (itemBuf ver (headBytes ver 0 lenField suffix) body).2 (refWrap w (.arr ts)) j)
    (hr : NoRefs (.arr ts)) (hne : xs ≠ [])
    (hts : ∀ (i : Nat) t x, ts[i]? = some t → xs[i]? = some x → Takes cfg.view tc e x t)
    (hsup : ∀ (i : Nat) t, xs.length ≤ i → ts[i]? = some t → Supported cfg.view t)
    (ho : Owned { ty := .slice e, place := .var l } B mem) (hm : Depicts tc mem (.slice e) B (mem.get l) (.slice xs)) :
    ∃ h vs mem', unmarshalInto cfg tc cs b (.slice e) l mem = .ok (h, mem') ∧
      mem'.get l = mem.get l ∧ Became tc { ty := .slice e, place := .var l } B mem mem' (.slice vs) ∧ vs.length = xs.length ∧
      (∀ (i : Nat) t x v, ts[i]? = some t → xs[i]? = some x → vs[i]? = some v →
        Fills cfg.view tc (Shows cfg.view h) e x t v) ∧ ∀ i : Nat, ts.length ≤ i → vs[i]? = xs[i]? := by
  obtain ⟨h, vs, h1, h2⟩ := C51_kept cfg tc cs b ver lenField suffix body w ts j e xs hd ht hr hne hts hsup
  obtain ⟨mem', h3, h4⟩ := unmarshalInto_follows ho hm h1
  refine ⟨h, vs, mem', h3, ?_, h4, h2⟩
  have hh : (mem.get l).isHandle := by
    generalize mem.get l = w at hm
    cases hm with
    | slice P k1 => exact fun h => hne (List.length_eq_zero_iff.1 (k1.trans h))
  rcases h4.stays trivial hh with h | h
  · cases h
  · exact h

/-- C52 in memory (missing: as for C52_partial, and variables part of which is shared): a map that is not nil stays the same
map, and gains entries. -/
theorem C52_mem_partial (cfg : DCfg) (tc : TCfg) (cs : Codecs) (b : Bytes) (ver : Nat) (lenField suffix body : Bytes)
    (w : Bool) (kts : List (Bytes × Tree)) (j : Nat) (e : Ty) (mem : Mem) (B : Nat → Prop) (l : Spot) (cur : TVal)
    (hd : IsDoc b ver 0 lenField suffix body)
    (ht : Denotes goDialect (itemBuf ver (headBytes ver 0 lenField suffix) body).1
      (itemBuf ver (headBytes ver 0 lenField suffix) body).2 (refWrap w (.map kts)) j)
    (hr : NoRefs (.map kts)) (hnd : (kts.map Prod.fst).Nodup)
    (hnew : ∀ k, k ∈ kts.map Prod.fst → mapLookup k cur.entries = none)
    (hts : ∀ k t, (k, t) ∈ kts → Takes cfg.view tc e .zero t)
    (ho : Owned { ty := .map e, place := .var l } B mem) (hm : Depicts tc mem (.map e) B (mem.get l) cur) :
    ∃ h kvs mem', unmarshalInto cfg tc cs b (.map e) l mem = .ok (h, mem') ∧
      (∀ a, mem.get l = .map a → mem'.get l = .map a) ∧
      Became tc { ty := .map e, place := .var l } B mem mem' (.map kvs) ∧
      (∀ k t, (k, t) ∈ kts → ∃ v, mapLookup k kvs = some v ∧ Fills cfg.view tc (Shows cfg.view h) e .zero t v) ∧
      ∀ k, k ∉ kts.map Prod.fst → mapLookup k kvs = mapLookup k cur.entries := by
  obtain ⟨h, kvs, h1, h2⟩ := C52_partial cfg tc cs b ver lenField suffix body w kts j e cur hd ht hr hnd hnew hts
  obtain ⟨mem', h3, h4⟩ := unmarshalInto_follows ho hm h1
  refine ⟨h, kvs, mem', h3, fun a ha => ?_, h4, h2⟩
  rcases h4.stays trivial (by show (mem.get l).isHandle; rw [ha]; trivial) with h | h
  · cases h
  · exact (show mem'.get l = mem.get l from h).trans ha

end

/-! ### Examples -/

/-- A variable 0 of type *P that points to variable 1, of type P, that holds {5, "h"} (see pairTypes). -/
def memPair : Mem where
  vars a := if a = 0 then .ptr ⟨1, []⟩ else if a = 1 then .multi [.int 5, .str [104]] else .zero
  next := 2

theorem memPair_depicts : Depicts pairTypes memPair (.ptr (.strct 0)) (fun b => b = 1) (memPair.get ⟨0, []⟩)
    (.ptr (.multi [.int 5, .str [104]])) := by
  refine .ptr (fun _ => False) rfl (fun _ h => h.elim) ?_
  refine .strct (fun _ _ => False) rfl (fun _ _ h => h.elim) (fun _ _ _ h => h.elim) fun i f hf => ?_
  match i with
  | 0 => cases hf; exact .int
  | 1 => cases hf; exact .str
  | i + 2 => cases hf

theorem memPair_owned : Owned { ty := .ptr (.strct 0), place := .var ⟨0, []⟩ } (fun b => b = 1) memPair :=
  ⟨fun l hl => (by cases hl; exact ⟨Spot.Ok.nil 0, by decide, by decide⟩), fun b hb => (by subst hb; decide)⟩

/-- The contents of the variables 0 and 1. -/
def pairAt1 : Res (Heap × Mem) → Option (Spot × Int × Bytes)
  | .ok (_, m) => match m.get ⟨0, []⟩, m.get ⟨1, []⟩ with
    | .ptr l, .multi [.int i, .str s] => some (l, i.toInt, s)
    | _, _ => none
  | _ => none

/-- {"x": 7, "z": 1}: the pointer stays, X changes behind it, Y does not. -/
example : pairAt1 (unmarshalInto {} pairTypes noCodecs docXZ (.ptr (.strct 0)) ⟨0, []⟩ memPair) = some (⟨1, []⟩, 7, [104]) := by
  decide +kernel

/-- A variable 0 of type []int8: elements 1 and 2 of the array {7, 8, 9, 10} in variable 1. -/
def memSlice : Mem where
  vars a := if a = 0 then .slice ⟨1, []⟩ 1 2 4 else if a = 1 then .multi [.int 7, .int 8, .int 9, .int 10] else .zero
  next := 2

theorem memSlice_depicts : Depicts noFloats memSlice (.slice (.int .int8)) (fun b => b = 1) (memSlice.get ⟨0, []⟩)
    (.slice [.int 8, .int 9]) := by
  refine .slice (fun _ _ => False) rfl (by decide) rfl (fun _ _ h => h.elim) (fun _ _ _ h => h.elim) fun i hi => ?_
  match i with
  | 0 => exact .int
  | 1 => exact .int
  | i + 2 => omega

theorem memSlice_owned : Owned { ty := .slice (.int .int8), place := .var ⟨0, []⟩ } (fun b => b = 1) memSlice :=
  ⟨fun l hl => (by cases hl; exact ⟨Spot.Ok.nil 0, by decide, by decide⟩), fun b hb => (by subst hb; decide)⟩

/-- The array in variable 1. -/
def intsAt1 : Res (Heap × Mem) → Option (List Int)
  | .ok (_, m) => match m.get ⟨0, []⟩, m.get ⟨1, []⟩ with
    | .slice ⟨1, []⟩ 1 2 4, .multi vs => vs.mapM fun v => match v with
      | .int i => some i.toInt
      | _ => none
    | _, _ => none
  | _ => none

/-- [1, 2, 3]: the slice stays, its two elements change, the rest of the array does not, and 3 is lost without an error: C51 is
false in memory too. -/
theorem C51_mem_fails : intsAt1 (unmarshalInto {} noFloats noCodecs doc123 (.slice (.int .int8)) ⟨0, []⟩ memSlice) = some [7, 1, 2, 10] := by
  decide +kernel

/-- A variable 0 of type map[string]int, map number 1: {"b": 2}. -/
def memMap : Mem where
  vars a := if a = 0 then .map 1 else .zero
  maps a := if a = 1 then [([98], .int 2)] else []
  next := 2

theorem memMap_depicts : Depicts noFloats memMap (.map (.int .int)) (fun b => b = 1) (memMap.get ⟨0, []⟩) (.map [([98], .int 2)]) := by
  have e : memMap.maps 1 = [([98], .int 2)] := rfl
  refine .map (fun _ _ => False) rfl (fun _ _ h => h.elim) (fun _ _ _ h => h.elim) (fun k => ?_) fun k w x hw hx => ?_
  · rw [e]; simp only [mapLookup]; split <;> rfl
  · rw [e] at hw
    simp only [mapLookup] at hw hx
    split at hw
    · next h => rw [if_pos h] at hx; cases hw; cases hx; exact .int
    · cases hw

theorem memMap_owned : Owned { ty := .map (.int .int), place := .var ⟨0, []⟩ } (fun b => b = 1) memMap :=
  ⟨fun l hl => (by cases hl; exact ⟨Spot.Ok.nil 0, by decide, by decide⟩), fun b hb => (by subst hb; decide)⟩

/-- The map number 1. -/
def entriesAt1 : Res (Heap × Mem) → Option (List (Bytes × Int))
  | .ok (_, m) => match m.get ⟨0, []⟩ with
    | .map 1 => (m.maps 1).mapM fun p => match p.2 with
      | .int i => some (p.1, i.toInt)
      | _ => none
    | _ => none
  | _ => none

/-- {"a": 1}: the map stays, and gains the entry. -/
example : entriesAt1 (unmarshalInto {} noFloats noCodecs docA1 (.map (.int .int)) ⟨0, []⟩ memMap) = some [([98], 2), ([97], 1)] := by
  decide +kernel

end Sereal
