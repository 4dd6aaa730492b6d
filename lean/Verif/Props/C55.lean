import Verif.Props.C49Mem
import Verif.Proof.LayMain
import Verif.Proof.Comp
/-
C55: Marshal, then Unmarshal into a new variable of the same type, for values in which pointers to structs may be
shared and form cycles.
-/
namespace Sereal

/-- C55.  For every type built from booleans, integers, floats, strings, byte slices, slices, arrays, maps, structs and
pointers to structs, and every value of such a type, with pointers to the same struct in several places and cycles:
Unmarshal accepts what Marshal makes of it for a new variable of the type, and leaves a copy of the whole graph there.
The types of the structs pointed at are `A`. -/
theorem C55 (cfg : ECfg) (dcfg : DCfg) (tc : TCfg) (cs : Codecs) (inp : Heap) (A : Nat → Option Nat) (header : Option Val)
    (v : Val) (ty : Ty) (l : Spot) (mem : Mem) (doc : Bytes) (hver : cfg.version ≤ 3)
    (hord : ∀ n ks, (cfg.ord n ks).Perm ks) (hc : cfg.compression = none) (hpc : dcfg.perlCompat = false)
    (hset : Settable tc) (hfl : Faithful tc) (hA : FitsAt tc inp A) (hv : Fit tc inp A ty v)
    (hl : ∀ x ∈ l.path, x.1 < x.2) (hb : l.base < mem.next) (hz : mem.get l = .zero)
    (h : marshalWithHeader cfg cs inp header v = .ok doc) (hsz : doc.length ≤ 2 ^ 31 - 1) :
    ∃ ρ h' mem', unmarshalInto dcfg tc cs doc ty l mem = .ok (h', mem') ∧ GraphCopy tc inp A ρ ty v l mem mem' := by
  obtain ⟨lf, suf, body, pre0, pre, h1, _, h3, h4, h5, h6⟩ := raw_body hver hc h (by omega)
  have hB : (pre ++ body).length ≤ maxSize := by simp only [maxSize]; omega
  have hlen : pre0.length + body.length = (pre ++ body).length := by simp [h4]
  obtain ⟨own, hlay⟩ := encodeAfter_lay hord hA hv h3 (by omega) pre h4.symm
  rw [h4] at hlay
  have hi : DInv A (pre ++ body) (fun _ => none) pre.length { d := DState.init, mem := mem } (fun _ => none) :=
    ⟨rfl, fun _ _ h => by simp at h, fun _ _ h => by simp at h, fun _ _ _ h => by simp at h, fun _ _ h => by simp at h,
      fun _ _ _ h => by simp at h, fun _ _ _ _ h => by simp at h⟩
  obtain ⟨s', ρ, e, p, c⟩ := lay_run (cfg := dcfg) hB hpc hset hfl hA hlay ty hv (fuelFor (pre ++ body).length) _ _ l
    (by unfold fuelFor; omega) hi (fun _ _ _ _ h => by simp at h) hl hb hz
  refine ⟨ρ, s'.d.heap, s'.mem, ?_, c, fun a b hab => ?_, p.inv.inj, fun z hz ha => ?_, fun m hm => ?_⟩
  · unfold unmarshalInto
    rw [bodyOf_eq, bodyInput_raw h1, h5]
    show (match decodeMem dcfg tc (pre ++ body) (fuelFor (pre ++ body).length) pre.length (varAt ty l) _ with
      | (.ok _, s) => _ | (.error (.panic m), _) => _ | (.error e, _) => _) = _
    rw [e]
  · rcases p.new a b hab with h | h
    · simp at h
    · exact h
  · exact p.frame z hz (by rintro _ rfl; exact ha)
  · exact p.maps m hm (fun h => h)

/-- C55 for compressed documents of version 2 and 3. -/
theorem C55_compressed (cfg : ECfg) (dcfg : DCfg) (tc : TCfg) (cs : Codecs) (inp : Heap) (A : Nat → Option Nat)
    (header : Option Val) (v : Val) (ty : Ty) (l : Spot) (mem : Mem) (doc raw : Bytes) (hcs : Lossless cs)
    (hver : cfg.version ≤ 3) (hv1 : cfg.version ≠ 1) (hord : ∀ n ks, (cfg.ord n ks).Perm ks) (hpc : dcfg.perlCompat = false)
    (hset : Settable tc) (hfl : Faithful tc) (hA : FitsAt tc inp A) (hv : Fit tc inp A ty v)
    (hl : ∀ x ∈ l.path, x.1 < x.2) (hb : l.base < mem.next) (hz : mem.get l = .zero)
    (h : marshalWithHeader cfg cs inp header v = .ok doc)
    (hr : marshalWithHeader cfg.uncompressed cs inp header v = .ok raw)
    (hsz : doc.length ≤ 2 ^ 31 - 1) (hrs : raw.length ≤ 2 ^ 31 - 1) :
    ∃ ρ h' mem', unmarshalInto dcfg tc cs doc ty l mem = .ok (h', mem') ∧ GraphCopy tc inp A ρ ty v l mem mem' := by
  have hv1' : cfg.ver ≠ 1 := by unfold ECfg.ver; split <;> omega
  obtain ⟨dt, w, body, z, h1, h2, h3⟩ := comp_body hcs hver (fun hh => hv1' hh.1) h hr hsz (by omega)
  obtain ⟨ρ, h', mem', h4, h5⟩ := C55 cfg.uncompressed dcfg tc cs inp A header v ty l mem raw hver hord rfl hpc hset hfl hA hv
    hl hb hz hr hrs
  refine ⟨ρ, h', mem', ?_, h5⟩
  rw [← h4]
  unfold unmarshalInto
  rw [bodyOf_eq, bodyOf_eq, h3, bodyInput_raw h2, itemBuf_doctype hv1' dt 0]

/-! #### Example -/

/-- `type P struct { N *P; A []*P; V int8; M map[string]*P }`. -/
def ringTypes : TCfg where
  types := fun i => if i = 0 then ⟨[⟨[78], [], true, .ptr (.strct 0)⟩, ⟨[65], [], true, .slice (.ptr (.strct 0))⟩,
    ⟨[86], [], true, .int .int8⟩, ⟨[77], [], true, .map (.ptr (.strct 0))⟩], none⟩ else ⟨[], none⟩
  widen := fun u => u.toUInt64
  narrow := fun u => u.toUInt32

/-- x = &P{N: y, A: {x, y, nil}, V: -3, M: {"k": y}}; y = &P{N: x, A: {}, V: 4, M: {}}.  `x` is 1 and `y` is 2. -/
def ringHeap : Heap where
  mem a := if a = 1 then .cell (.strct [80] 3) else if a = 2 then .cell (.strct [80] 4)
    else if a = 3 then .flds [⟨[78], [], true, .ptr false 2⟩, ⟨[65], [], true, .rslice 5 3⟩, ⟨[86], [], true, .int .int8 (-3)⟩,
      ⟨[77], [], true, .rmap 8⟩]
    else if a = 4 then .flds [⟨[78], [], true, .ptr false 1⟩, ⟨[65], [], true, .rslice 5 0⟩, ⟨[86], [], true, .int .int8 4⟩,
      ⟨[77], [], true, .rmap 9⟩]
    else if a = 5 then .cell (.ptr false 1) else if a = 6 then .cell (.ptr false 2) else if a = 7 then .cell .nilptr
    else if a = 8 then .mp [([107], .ptr false 2)] else if a = 9 then .mp []
    else .cell .nil
  next := 10

def ringAt : Nat → Option Nat := fun a => if a = 1 ∨ a = 2 then some 0 else none

theorem ring_fits : FitsAt ringTypes ringHeap ringAt := by
  intro a id ha
  have hx : ringAt 1 = some 0 := rfl
  have hy : ringAt 2 = some 0 := rfl
  unfold ringAt at ha
  by_cases h : a = 1 ∨ a = 2
  · rw [if_pos h] at ha
    cases ha
    rcases h with rfl | rfl
    · refine .strct (a := 3) rfl ?_ ?_
      · intro i f g hf hg
        match i with
        | 0 => cases hf; cases hg; exact ⟨rfl, rfl, rfl⟩
        | 1 => cases hf; cases hg; exact ⟨rfl, rfl, rfl⟩
        | 2 => cases hf; cases hg; exact ⟨rfl, rfl, rfl⟩
        | 3 => cases hf; cases hg; exact ⟨rfl, rfl, rfl⟩
        | i + 4 => cases hf
      · intro i f g k hf hg _
        match i with
        | 0 => cases hf; cases hg; exact .ptr hy
        | 1 =>
          cases hf; cases hg
          refine .slice (.inr rfl) fun i hi => ?_
          match i with
          | 0 => exact .ptr hx
          | 1 => exact .ptr hy
          | 2 => exact .nilptr
          | i + 3 => omega
        | 2 => cases hf; cases hg; exact .int (by decide) (by decide)
        | 3 =>
          cases hf; cases hg
          refine .map (m := 8) (.inr rfl) (by decide) fun k u hu => ?_
          have : mapLookup k [(([107] : Bytes), Val.ptr false 2)] = some u := hu
          unfold mapLookup at this
          split at this
          · cases this; exact .ptr hy
          · cases this
        | i + 4 => cases hf
    · refine .strct (a := 4) rfl ?_ ?_
      · intro i f g hf hg
        match i with
        | 0 => cases hf; cases hg; exact ⟨rfl, rfl, rfl⟩
        | 1 => cases hf; cases hg; exact ⟨rfl, rfl, rfl⟩
        | 2 => cases hf; cases hg; exact ⟨rfl, rfl, rfl⟩
        | 3 => cases hf; cases hg; exact ⟨rfl, rfl, rfl⟩
        | i + 4 => cases hf
      · intro i f g k hf hg _
        match i with
        | 0 => cases hf; cases hg; exact .ptr hx
        | 1 => cases hf; cases hg; exact .slice (.inr rfl) fun i hi => by omega
        | 2 => cases hf; cases hg; exact .int (by decide) (by decide)
        | 3 => cases hf; cases hg; exact .map (m := 9) (.inr rfl) (by decide) fun k u hu => by cases hu
        | i + 4 => cases hf
  · rw [if_neg h] at ha; cases ha

/-- The document for the example. -/
def ringDoc : Bytes := (marshal {} noCodecs ringHeap (.ptr false 1)).toOption.getD []

theorem ringDoc_ok : marshal {} noCodecs ringHeap (.ptr false 1) = .ok ringDoc := by decide +kernel

/-- The example meets the hypotheses of C55. -/
theorem ring_copied : ∃ ρ h' mem', unmarshalInto {} ringTypes noCodecs ringDoc (.ptr (.strct 0)) ⟨0, []⟩ { next := 1 } = .ok (h', mem') ∧
    GraphCopy ringTypes ringHeap ringAt ρ (.ptr (.strct 0)) (.ptr false 1) ⟨0, []⟩ { next := 1 } mem' := by
  refine C55 {} {} ringTypes noCodecs ringHeap ringAt none _ _ _ _ _ (by decide) (fun _ _ => .rfl) rfl rfl ?_ ?_ ring_fits
    (.ptr rfl) (by simp) (by decide) rfl ringDoc_ok (by decide +kernel)
  · intro id f hf
    simp only [ringTypes] at hf
    split at hf
    · simp at hf
      rcases hf with rfl | rfl | rfl | rfl <;> simp
    · simp at hf
  · intro u _
    simp [ringTypes]

/-- What the fields N of `x` and `y` and the elements of `x.A` are afterwards. -/
def ringIn : Res (Heap × Mem) → Option (List Spot)
  | .ok (_, m) =>
    match m.get ⟨0, []⟩ with
    | .ptr x => match m.get (x.sub 0 4), m.get (x.sub 1 4) with
      | .ptr y, .slice l off 3 cap => match m.get (y.sub 0 4), m.get (l.sub off cap), m.get (l.sub (off + 1) cap) with
        | .ptr x', .ptr x'', .ptr y' => some [x, y, x', x'', y']
        | _, _, _ => none
      | _, _ => none
    | _ => none
  | _ => none

/-- Both pointers to `x` inside are the pointer that is returned, and both to `y` are equal. -/
theorem ring_closed : (ringIn (unmarshalInto {} ringTypes noCodecs ringDoc (.ptr (.strct 0)) ⟨0, []⟩ { next := 1 })).map
    (fun ls => match ls with
      | [x, y, x', x'', y'] => decide (x = x' ∧ x = x'' ∧ y = y' ∧ x ≠ y)
      | _ => false) = some true := by decide +kernel

end Sereal
