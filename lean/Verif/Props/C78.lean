import Verif.Spec.Alike
import Verif.Proof.Moved
import Verif.Props.C56
/-
C78: Marshal writes the same document for the same data, and for nothing else.
-/
namespace Sereal

/-! ### The same document means the same data -/

theorem Same.integer {h r : Heap} {v x : Val} {i : Int} (hi : IntOf x i) (hs : Same h r v x) : IntOf v i := by
  cases hs <;> first
    | cases hi
    | skip
  · exact .int
  · next hu => rw [hu]; exact .uint
  · exact .uint

theorem Same.alike {n n' : Nat} {h h' r : Heap} {v v' x : Val} (hp : Plain n h v) (hp' : Plain n' h' v') (hs : Same h r v x)
    (hs' : Same h' r v' x) : Alike h h' v v' := by
  induction hs generalizing v' with
  | nil => cases hs'; exact .nil
  | bool => cases hs'; exact .bool
  | int => exact .int .int (hs'.integer .int)
  | uintSmall hu => exact .int (Same.integer .int (.uintSmall (h := h) (h' := r) hu)) (hs'.integer .int)
  | uintBig hu => exact .int .uint (hs'.integer .uint)
  | f32 => cases hs'; exact .f32
  | f64 => cases hs'; exact .f64
  | str => cases hs'; exact .str
  | bin => cases hs'; exact .bin
  | slice _ ih =>
    cases hs' with
    | slice hs' =>
      cases hp with
      | slice _ hp =>
        cases hp' with
        | slice _ hp' => exact .slice fun i hi => ih i hi (hp i hi) (hp' i hi) (hs' i hi)
  | smap _ h1 _ ih =>
    cases hs' with
    | smap _ h1' hs' =>
      cases hp with
      | smap _ hn _ hp =>
        cases hp' with
        | smap _ hn' _ hp' =>
          refine .smap hn hn' (fun k => (h1 k).trans (h1' k).symm) fun k a a' ha ha' => ?_
          obtain ⟨x, hx⟩ := Option.isSome_iff_exists.1 ((h1 k).symm.trans (by rw [ha]; rfl))
          exact ih k a x ha hx (hp k a ha) (hp' k a' ha') (hs' k a' x ha' hx)

/-- Two documents of Marshal or MarshalWithHeader that are equal have the same data in their bodies, whatever the Encoders, the
headers and the memories.  `raw` and `raw'` are the documents before compression. -/
theorem C78 (c c' : ECfg) (cs : Codecs) (inp inp' : Heap) (header header' : Option Val) (v v' : Val) (doc raw raw' : Bytes)
    (hp : Plain (2 ^ 31 - 1) inp v) (hp' : Plain (2 ^ 31 - 1) inp' v')
    (hver : c.version ≤ 3) (hver' : c'.version ≤ 3) (hord : ∀ n ks, (c.ord n ks).Perm ks) (hord' : ∀ n ks, (c'.ord n ks).Perm ks)
    (hl : c.compression = none ∨ (Lossless cs ∧ ¬ (c.version = 1 ∧ c.compression = some (.snappy true))))
    (hl' : c'.compression = none ∨ (Lossless cs ∧ ¬ (c'.version = 1 ∧ c'.compression = some (.snappy true))))
    (h : marshalWithHeader c cs inp header v = .ok doc) (h' : marshalWithHeader c' cs inp' header' v' = .ok doc)
    (hr : marshalWithHeader c.uncompressed cs inp header v = .ok raw)
    (hr' : marshalWithHeader c'.uncompressed cs inp' header' v' = .ok raw')
    (hs : doc.length ≤ 2 ^ 31 - 1) (hrs : raw.length ≤ 2 ^ 31 - 1) (hrs' : raw'.length ≤ 2 ^ 31 - 1) : Alike inp inp' v v' := by
  obtain ⟨r, x, e, hx⟩ := Plain.roundtrip (cfg := c.uncompressed) hp hord hver rfl hr (by omega) {} rfl
  obtain ⟨r', x', e', hx'⟩ := Plain.roundtrip (cfg := c'.uncompressed) hp' hord' hver' rfl hr' (by omega) {} rfl
  have e1 : unmarshal {} cs doc = unmarshal {} cs raw :=
    C56 c c.uncompressed cs inp header header v doc raw raw raw {} ⟨rfl, rfl, rfl, rfl, rfl, rfl⟩ hver hver hord hl (.inl rfl) h hr hr hr
      hs hrs hrs hrs
  have e2 : unmarshal {} cs doc = unmarshal {} cs raw' :=
    C56 c' c'.uncompressed cs inp' header' header' v' doc raw' raw' raw' {} ⟨rfl, rfl, rfl, rfl, rfl, rfl⟩ hver' hver' hord' hl' (.inl rfl)
      h' hr' hr' hr' hs hrs' hrs' hrs'
  have : (Except.ok (r, x) : Res (Heap × Val)) = .ok (r', x') := by rw [← e, ← e', ← e1, e2]
  injection this with this
  injection this with a b
  subst a b
  exact hx.alike hp hp' hx'

/-- For all values, with structs, pointers, objects and so on: there is one document tree that both may be written as (`Written`, which
looks at values, not at the encoder). -/
theorem C78_tree (c c' : ECfg) (cs : Codecs) (inp inp' : Heap) (header header' : Option Val) (v v' : Val) (doc : Bytes)
    (hver : c.version ≤ 3) (hver' : c'.version ≤ 3) (hord : ∀ n ks, (c.ord n ks).Perm ks) (hord' : ∀ n ks, (c'.ord n ks).Perm ks)
    (hc : c.compression = none) (hc' : c'.compression = none) (h : marshalWithHeader c cs inp header v = .ok doc)
    (h' : marshalWithHeader c' cs inp' header' v' = .ok doc) (hs : doc.length ≤ 2 ^ 31 - 1) :
    ∃ t, Written c inp false v t ∧ Written c' inp' false v' t := by
  obtain ⟨lf, suf, body, t, d, _, w, f, g⟩ := raw_denotes hord hver hc h (by omega)
  obtain ⟨lf', suf', body', t', d', _, w', f', g'⟩ := raw_denotes hord' hver' hc' h' (by omega)
  obtain ⟨T, g⟩ := g (f.mono hs)
  obtain ⟨T', g'⟩ := g' (f'.mono hs)
  have e := (bodyInput_raw (cs := cs) d).symm.trans (bodyInput_raw (cs := cs) d')
  injection e with e
  rw [← e] at g'
  have := (g.unique g').1
  injection this with this
  subst this
  exact ⟨t, w, w'⟩

/-! ### The same data give the same document -/

theorem encodeInt_intOf {v v' : Val} {i : Int} (hi : IntOf v i) (hi' : IntOf v' i) (cfg : ECfg) (h h' : Heap)
    (rec rec' : Option (Val → Bool → Bool → E Unit)) (ik rn : Bool) : encodeVal cfg h rec v ik rn = encodeVal cfg h' rec' v' ik rn := by
  have mixed : ∀ (i : Int64) (u : UInt64), i.toInt = u.toNat → encodeInt true i = encodeInt false u.toInt64 := by
    intro i u e
    have h1 := i64_toNat u.toInt64
    rw [u64_toInt] at h1
    have h2 : u.toInt64.toInt = i.toInt := by
      have := Int64.toInt_lt i
      have := Int64.le_toInt u.toInt64
      split at h1 <;> omega
    rw [Int64.toInt_inj.1 h2]
    have h0 : (0 : Int64) ≤ i := Int64.le_iff_toInt_le.2 (by rw [e]; exact Int.natCast_nonneg _)
    have hneg : ¬ i < 0 := fun hc => by
      have h1 := Int64.lt_iff_toInt_lt.1 hc
      have h2 := Int64.le_iff_toInt_le.1 h0
      omega
    have hcmp : ¬ i ≤ 15 → i > 15 := fun hc => by
      have h1 := mt Int64.le_iff_toInt_le.2 hc
      exact Int64.lt_iff_toInt_lt.2 (by omega)
    unfold encodeInt
    by_cases hs : i ≤ 15
    · rw [if_pos ⟨h0, hs⟩, if_pos ⟨h0, hs⟩]
    · rw [if_neg (fun hc => hs hc.2), if_neg (fun hc => hneg hc.2.1), if_pos (hcmp hs), if_neg (fun hc => hs hc.2),
        if_neg (fun hc => hneg hc.2.1), if_pos (hcmp hs)]
  generalize hj : i = j at hi'
  cases hi with
  | int =>
    cases hi' with
    | int => rw [Int64.toInt_inj.1 hj]; unfold encodeVal; rfl
    | uint => unfold encodeVal; rw [mixed _ _ hj]
  | uint =>
    cases hi' with
    | int => unfold encodeVal; rw [mixed _ _ hj.symm]
    | uint => rw [UInt64.toNat_inj.1 (Int.ofNat.inj hj)]; unfold encodeVal; rfl

theorem keys_perm {a b : List (Bytes × Val)} (ha : (a.map Prod.fst).Nodup) (hb : (b.map Prod.fst).Nodup)
    (h : ∀ k, (mapLookup k a).isSome = (mapLookup k b).isSome) : (a.map Prod.fst).Perm (b.map Prod.fst) := by
  rw [List.perm_ext_iff_of_nodup ha hb]
  intro k
  rw [← mapLookup_isSome, ← mapLookup_isSome, h k]

variable {cfg : ECfg} {h h' : Heap}

theorem alike_val (hcan : ∀ n ks ks', ks.Perm ks' → cfg.ord n ks = cfg.ord n ks') {rec rec' : Option (Val → Bool → Bool → E Unit)}
    (hrec : (rec = none ∧ rec' = none) ∨ ∃ f f', rec = some f ∧ rec' = some f' ∧
      ∀ {v v'}, Alike h h' v v' → ∀ ik rn, PairedRuns (fun _ _ => False) (f v ik rn) (f' v' ik rn))
    {v v' : Val} (ha : Alike h h' v v') (ik rn : Bool) :
    PairedRuns (fun _ _ => False) (encodeVal cfg h rec v ik rn) (encodeVal cfg h' rec' v' ik rn) := by
  cases ha with
  | nil => unfold encodeVal; exact .emit _
  | bool => unfold encodeVal; exact .emit _
  | int hi hi' =>
    rw [encodeInt_intOf hi hi' cfg h h' rec rec']
    cases hi' <;> unfold encodeVal <;> exact .emit _
  | f32 => unfold encodeVal; exact .emit _
  | f64 => unfold encodeVal; exact .emit _
  | str => unfold encodeVal; exact twins_string (dp' := cfg.dataPtr) _ _
  | bin => unfold encodeVal; exact twins_bytes (dp' := cfg.dataPtr) _ _
  | slice hs =>
    unfold encodeVal
    rcases hrec with ⟨rfl, rfl⟩ | ⟨f, f', rfl, rfl, hf⟩
    · exact .err _
    · refine twins_arr (dp' := cfg.dataPtr) rn ?_
      unfold sliceVals
      rw [List.forall₂_map_left_iff, List.forall₂_map_right_iff, List.forall₂_same]
      exact fun i hi => hf (hs i (List.mem_range.1 hi)) false false
  | @smap m m' hn hn' hk hv =>
    unfold encodeVal
    rcases hrec with ⟨rfl, rfl⟩ | ⟨f, f', rfl, rfl, hf⟩
    · exact .err _
    · have hpm := keys_perm hn hn' hk
      refine twins_mp (dp' := cfg.dataPtr) rn true (by simpa using hpm.length_eq) (fun n => hcan n _ _ hpm) fun k => ?_
      have hk := hk k
      rcases e : mapLookup k (h.mapAt m) with _ | x <;> rcases e' : mapLookup k (h'.mapAt m') with _ | x'
      · exact hf .nil false false
      · rw [e, e'] at hk; cases hk
      · rw [e, e'] at hk; cases hk
      · exact hf (hv k x x' e e') false false

theorem alike_encode (hcan : ∀ n ks ks', ks.Perm ks' → cfg.ord n ks = cfg.ord n ks') : ∀ (d : Nat) {v v' : Val}, Alike h h' v v' →
    ∀ ik rn, PairedRuns (fun _ _ => False) (encode cfg h d v ik rn) (encode cfg h' d v' ik rn)
  | 0, _, _, ha, ik, rn => alike_val hcan (.inl ⟨rfl, rfl⟩) ha ik rn
  | 1, _, _, ha, ik, rn => alike_val hcan (.inl ⟨rfl, rfl⟩) ha ik rn
  | d + 2, _, _, ha, ik, rn => alike_val hcan (.inr ⟨_, _, rfl, rfl, fun ha ik rn => alike_encode hcan (d + 1) ha ik rn⟩) ha ik rn

theorem encodeAfter_alike (hcan : ∀ n ks ks', ks.Perm ks' → cfg.ord n ks = cfg.ord n ks') {v v' : Val} (ha : Alike h h' v v') (pre : Bytes) :
    encodeAfter cfg h pre v = encodeAfter cfg h' pre v' := by
  unfold encodeAfter
  rcases alike_encode hcan (remainingRecursion cfg.maxRecursionDepth) ha false false { buf := pre } { buf := pre }
      ⟨rfl, rfl, rfl, fun _ _ _ => rfl⟩ with ⟨a, t, t', e, e', ht⟩ | ⟨er, e, e'⟩
  · rw [e, e']
    dsimp only
    rw [ht.1]
  · rw [e, e']

/-- An Encoder that visits the keys of equal maps in the same order writes the same document for the same data, or returns the same
error.  (Go's maps have no such order: C07 says what holds without it.) -/
theorem C78_same (cfg : ECfg) (cs : Codecs) (h h' : Heap) (header header' : Option Val) (body body' : Val)
    (hcan : ∀ n ks ks', ks.Perm ks' → cfg.ord n ks = cfg.ord n ks')
    (hh : Option.Rel (Alike h h') header header') (hb : Alike h h' body body') :
    marshalWithHeader cfg cs h header body = marshalWithHeader cfg cs h' header' body' := by
  have hsuf : headerSuffix cfg h header = headerSuffix cfg h' header' := by
    cases hh with
    | none => rfl
    | some hm =>
      unfold headerSuffix
      dsimp only
      rw [encodeAfter_alike hcan hm]
  have hraw : marshalRaw cfg cs h header body = marshalRaw cfg cs h' header' body' := by
    unfold marshalRaw
    dsimp only
    rw [hsuf]
    congr 1
    funext suf
    rw [encodeAfter_alike hcan hb]
  unfold marshalWithHeader
  rw [hraw]

/-! ### Examples -/

namespace SameData

/-- Keys in alphabetical order. -/
def sorted (_ : Nat) (ks : List Bytes) : List Bytes := ks.mergeSort fun a b => decide (a ≤ b)

theorem sorted_perm (n : Nat) (ks : List Bytes) : (sorted n ks).Perm ks := List.mergeSort_perm _ _

theorem sorted_canonical (n : Nat) (ks ks' : List Bytes) (hp : ks.Perm ks') : sorted n ks = sorted n ks' := by
  have tr : ∀ a b c : Bytes, decide (a ≤ b) = true → decide (b ≤ c) = true → decide (a ≤ c) = true := fun a b c h1 h2 =>
    decide_eq_true (List.le_trans (of_decide_eq_true h1) (of_decide_eq_true h2))
  have tot : ∀ a b : Bytes, (decide (a ≤ b) || decide (b ≤ a)) = true := fun a b => by
    rcases List.le_total a b with h | h <;> simp [h]
  refine List.Perm.eq_of_pairwise (le := fun a b => decide (a ≤ b) = true) (fun a b _ _ h1 h2 => ?_)
    (List.pairwise_mergeSort tr tot ks) (List.pairwise_mergeSort tr tot ks')
    ((sorted_perm n ks).trans (hp.trans (sorted_perm n ks').symm))
  exact List.le_antisymm (of_decide_eq_true h1) (of_decide_eq_true h2)

/-- { "a": 5, "b": 300 } with int and uint8, uint64; entries in two orders. -/
def one : Heap := { mem := fun a => if a = 1 then .mp [([97], .int .int 5), ([98], .uint .uint64 300)] else .cell .nil, next := 2 }
def two : Heap := { mem := fun a => if a = 7 then .mp [([98], .int .int16 300), ([97], .uint .uint8 5)] else .cell .nil, next := 8 }

theorem alike : Alike one two (.smap 1) (.smap 7) := by
  refine .smap (by decide) (by decide) (fun k => ?_) (fun k v v' hv hv' => ?_)
  · change (if [97] = k then some _ else if [98] = k then some _ else none).isSome = (if [98] = k then some _ else if [97] = k then some _ else none).isSome
    split <;> split <;> rfl
  · have h1 := mapLookup_mem hv
    have h2 := mapLookup_mem hv'
    simp [Heap.mapAt, one] at h1
    simp [Heap.mapAt, two] at h2
    rcases h1 with ⟨rfl, rfl⟩ | ⟨rfl, rfl⟩ <;> rcases h2 with ⟨hk, rfl⟩ | ⟨hk, rfl⟩
    · cases hk
    · exact .int (i := 5) .int .uint
    · exact .int (i := 300) .uint .int
    · cases hk

example (cs : Codecs) : marshal { ord := sorted } cs one (.smap 1) = marshal { ord := sorted } cs two (.smap 7) :=
  C78_same { ord := sorted } cs one two none none _ _ sorted_canonical .none alike

example : (match marshal {} noCodecs one (.smap 1) with | .ok doc => doc | _ => []) =
    [0x3d, 0xf3, 0x72, 0x6c, 3, 0, 0x2a, 2, 0x27, 1, 97, 5, 0x27, 1, 98, 0x20, 0xac, 2] := by decide +kernel

/-- Without such an order the documents differ, although the data are the same. -/
theorem order_matters : marshal {} noCodecs one (.smap 1) ≠ marshal {} noCodecs two (.smap 7) := by
  intro h
  have h1 : (match marshal {} noCodecs one (.smap 1) with | .ok doc => doc | _ => []) ≠
      (match marshal {} noCodecs two (.smap 7) with | .ok doc => doc | _ => []) := by decide +kernel
  rw [h] at h1
  exact h1 rfl

end SameData

end Sereal
