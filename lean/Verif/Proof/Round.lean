import Verif.Proof.EmitMain
import Verif.Proof.Marshal
import Verif.Spec.Same
/-
From Marshal to Unmarshal.
-/
namespace Sereal

/-- What the body of an uncompressed document is, on both sides. -/
theorem raw_body {cfg : ECfg} {cs : Codecs} {inp : Heap} {header : Option Val} {v : Val} {doc : Bytes}
    (hver : cfg.version ≤ 3) (hc : cfg.compression = none) (h : marshalWithHeader cfg cs inp header v = .ok doc)
    (hsz : doc.length < 2 ^ 63) :
    ∃ lf suf body pre0 pre, IsDoc doc cfg.ver 0 lf suf body ∧ (header = none → suf = []) ∧
      encodeAfter cfg inp pre0 v = .ok body ∧ pre0.length = pre.length ∧
      itemBuf cfg.ver (headBytes cfg.ver 0 lf suf) body = (pre ++ body, pre.length) ∧
      (pre ++ body).length ≤ doc.length := by
  obtain ⟨suffix, body, h1, h2, h3⟩ := marshal_ok.1 h
  have hdoc : doc = encHeader cfg suffix serealRaw ++ body := by
    rcases h3 with ⟨_, hd⟩ | ⟨c, h4, _⟩ | ⟨c, _, _, h4, _⟩
    · exact hd
    · rw [hc] at h4; cases h4
    · rw [hc] at h4; cases h4
  obtain ⟨w, rfl, hw⟩ := headerSuffix_split h1
  obtain ⟨hv1, hv3⟩ := ECfg.ver_range hver
  have hd := hdoc
  rw [encHeader_eq hver (by decide)] at hd
  have hl : w.length < 2 ^ 64 := by
    have : w.length ≤ doc.length := by rw [hd]; simp; omega
    omega
  have hdl : doc.length = 5 + (varint w.length).length + w.length + body.length := by
    rw [hd]
    have := magicOf_length cfg.ver
    simp
    omega
  have hisd : IsDoc doc cfg.ver 0 (varint w.length) w body :=
    ⟨by rw [hd]; simp [serealRaw], ⟨hv1, by omega⟩, by omega, isVarint_varint _, varint_length_le_ten hl,
      groups_varint _, hsz⟩
  obtain ⟨pre, hp1, hp2, hp3, hp4⟩ := itemBuf_pre cfg.ver 0 (varint w.length) w
  refine ⟨_, w, body, _, pre, hisd, hw, h2, ?_, hp4 body, by simp; omega⟩
  by_cases hv : cfg.ver = 1
  · rw [if_pos hv]
    have h5 := hp4 []
    unfold itemBuf at h5
    rw [if_pos hv] at h5
    have h6 : (headBytes cfg.ver 0 (varint w.length) w).length = pre.length := by
      have := congrArg Prod.snd h5
      exact this
    rw [← h6, headBytes_length, encHeader_eq hver (by decide)]
    have := magicOf_length cfg.ver
    simp
    omega
  · rw [if_neg hv, hp3 hv]; rfl

/-- What an uncompressed document denotes. -/
theorem raw_denotes {cfg : ECfg} {cs : Codecs} {inp : Heap} {header : Option Val} {v : Val} {doc : Bytes}
    (hord : ∀ n ks, (cfg.ord n ks).Perm ks)
    (hver : cfg.version ≤ 3) (hc : cfg.compression = none) (h : marshalWithHeader cfg cs inp header v = .ok doc)
    (hsz : doc.length < 2 ^ 63) :
    ∃ lf suf body t, IsDoc doc cfg.ver 0 lf suf body ∧ (header = none → suf = []) ∧
      Written cfg inp false v t ∧ Fits doc.length t ∧
      (Fits maxSize t → Denotes wrtDialect (itemBuf cfg.ver (headBytes cfg.ver 0 lf suf) body).1
        (itemBuf cfg.ver (headBytes cfg.ver 0 lf suf) body).2 t
        (itemBuf cfg.ver (headBytes cfg.ver 0 lf suf) body).1.length) := by
  obtain ⟨lf, suf, body, pre0, pre, h1, h2, h3, h4, h5, h6⟩ := raw_body hver hc h hsz
  have hlen : pre0.length + body.length = (pre ++ body).length := by simp [h4]
  obtain ⟨t, hW, hF, hD⟩ := encodeAfter_item hord h3 (by omega)
  refine ⟨lf, suf, body, t, h1, h2, hW, hF.mono (by omega), fun hm => ?_⟩
  have := hD pre [] h4.symm hm
  rw [List.append_nil, hlen, h4] at this
  rw [h5]
  exact this

/-- Unmarshal of an uncompressed document gives the view of a tree the value may be written as. -/
theorem raw_roundtrip {cfg : ECfg} {cs : Codecs} {inp : Heap} {header : Option Val} {v : Val} {doc : Bytes}
    (hord : ∀ n ks, (cfg.ord n ks).Perm ks)
    (hver : cfg.version ≤ 3) (hc : cfg.compression = none) (h : marshalWithHeader cfg cs inp header v = .ok doc)
    (hsz : doc.length < 2 ^ 63) :
    ∃ t, Written cfg inp false v t ∧ Fits doc.length t ∧
      ∀ dcfg : DCfg, Fits maxSize t → Supported dcfg.view t →
        ∃ h' v', unmarshal dcfg cs doc = .ok (h', v') ∧ Shows dcfg.view h' v' t := by
  obtain ⟨lf, suf, body, t, h1, _, h3, h4, h5⟩ := raw_denotes hord hver hc h hsz
  refine ⟨t, h3, h4, fun dcfg hF hs => ?_⟩
  obtain ⟨T, g⟩ := h5 hF
  exact unmarshal_complete (bodyInput_raw h1) h1.buf_lt ⟨T, g.wrt_core.core_go⟩ hs

/-! ### Plain data -/

theorem Supported.refWrap {c : ViewCfg} {b : Bool} {t : Tree} (h : Supported c t) : Supported c (refWrap b t) := by
  unfold Sereal.refWrap; split
  · exact .ref h
  · exact h

theorem Fits.refWrap {n : Nat} {b : Bool} {t : Tree} (h : Fits n t) : Fits n (refWrap b t) := by
  unfold Sereal.refWrap; split
  · exact .ref h
  · exact h

theorem Shows.refWrap {c : ViewCfg} {h : Heap} {v : Val} {b : Bool} {t : Tree} (hp : c.perlCompat = false)
    (hs : Shows c h v (refWrap b t)) : Shows c h v t := by
  unfold Sereal.refWrap at hs
  cases b with
  | false => exact hs
  | true =>
    rw [if_pos rfl] at hs
    cases hs with
    | ref _ h => exact h
    | refP h => rw [hp] at h; cases h

theorem mem_of_keys {kts : List (Bytes × Tree)} {kvs : List (Bytes × Val)}
    (hp : (kts.map Prod.fst).Perm (kvs.map Prod.fst)) {k : Bytes} {t : Tree} (h : (k, t) ∈ kts) :
    ∃ v, mapLookup k kvs = some v := by
  have h1 : k ∈ kvs.map Prod.fst := hp.mem_iff.1 (List.mem_map.2 ⟨(k, t), h, rfl⟩)
  exact Option.isSome_iff_exists.1 ((mapLookup_isSome k kvs).2 h1)

theorem mapLookup_mem {α : Type} {k : Bytes} {v : α} {xs : List (Bytes × α)} (h : mapLookup k xs = some v) :
    (k, v) ∈ xs := by
  induction xs with
  | nil => cases h
  | cons e xs ih =>
    obtain ⟨k1, v1⟩ := e
    simp only [mapLookup] at h
    split at h
    · rename_i hk; cases h; rw [hk]; simp
    · exact List.mem_cons_of_mem _ (ih h)

theorem lastLookup_mem {α : Type} {k : Bytes} {v : α} {xs : List (Bytes × α)} (h : lastLookup k xs = some v) :
    (k, v) ∈ xs := by
  unfold lastLookup at h
  simpa using mapLookup_mem h

theorem lastLookup_isSome {α : Type} (k : Bytes) (xs : List (Bytes × α)) :
    (lastLookup k xs).isSome ↔ k ∈ xs.map Prod.fst := by
  unfold lastLookup
  rw [mapLookup_isSome]
  simp

theorem Plain.tree {n : Nat} {inp : Heap} {v : Val} (hp : Plain n inp v) {cfg : ECfg} (c : ViewCfg) {rn : Bool}
    {t : Tree} (hw : Written cfg inp rn v t) : Supported c t ∧ Fits n t := by
  induction hp generalizing rn t with
  | nil => cases hw; exact ⟨.undef, .undef⟩
  | bool => cases hw; exact ⟨.bool, .bool⟩
  | int => cases hw; exact ⟨.int, .int⟩
  | uint => cases hw; exact ⟨.int, .int⟩
  | f32 => cases hw; exact ⟨.f32, .f32⟩
  | f64 => cases hw; exact ⟨.f64, .f64⟩
  | str h => cases hw; exact ⟨.str, .str h⟩
  | bin h => cases hw; exact ⟨.bin, .bin h⟩
  | slice hl _ ih =>
    cases hw with
    | @slice _ _ ts hW =>
      have : ∀ t' ∈ ts, Supported c t' ∧ Fits n t' := by
        intro t' ht'
        obtain ⟨i, hi, rfl⟩ := List.getElem_of_mem ht'
        exact ih i hi (hW i _ (by simp))
      exact ⟨.refWrap (.arr (fun t' ht' => (this t' ht').1)), .refWrap (.arr hl (fun t' ht' => (this t' ht').2))⟩
  | smap hl _ hkl _ ih =>
    cases hw with
    | @smap _ _ kts hperm hW =>
      have : ∀ (k : Bytes) t', (k, t') ∈ kts → k.length ≤ n ∧ Supported c t' ∧ Fits n t' := by
        intro k t' ht'
        obtain ⟨v, hv⟩ := mem_of_keys hperm ht'
        exact ⟨hkl k v hv, ih k v hv (hW k t' v ht' hv)⟩
      refine ⟨.refWrap (.map (fun k t' ht' => (this k t' ht').2.1)), .refWrap (.map ?_
        (fun k t' ht' => (this k t' ht').1) (fun k t' ht' => (this k t' ht').2.2))⟩
      have := hperm.length_eq
      simp at this
      omega

theorem Shows.arr_inv {c : ViewCfg} {h : Heap} {v : Val} {ts : List Tree} (hs : Shows c h v (.arr ts)) :
    ∃ p, v = .slice p ts.length ∧ ∀ (i : Nat) t, ts[i]? = some t → Shows c h (h.cellAt (p + i)) t := by
  generalize ht : Tree.arr ts = t at hs
  cases hs <;> try (cases ht; done)
  rename_i p ts' f h1 h2
  cases ht
  refine ⟨p, rfl, fun i t hi => ?_⟩
  have hl := (List.getElem?_eq_some_iff.1 hi).1
  have := h2 i t hi
  unfold Heap.cellAt
  rw [h1 i hl]
  exact this

theorem Shows.map_inv {c : ViewCfg} {h : Heap} {v : Val} {kvs : List (Bytes × Tree)} (hs : Shows c h v (.map kvs)) :
    ∃ m, v = .smap m ∧ ((h.mapAt m).map Prod.fst).Nodup ∧
      (∀ k, (mapLookup k (h.mapAt m)).isSome = (lastLookup k kvs).isSome) ∧
      (∀ k v t, mapLookup k (h.mapAt m) = some v → lastLookup k kvs = some t → Shows c h v t) := by
  generalize ht : Tree.map kvs = t at hs
  cases hs <;> try (cases ht; done)
  rename_i m kvs' es h1 h2 h3 h4
  cases ht
  have : h.mapAt m = es := by unfold Heap.mapAt; rw [h1]
  exact ⟨m, rfl, by rw [this]; exact h2, by rw [this]; exact h3, by rw [this]; exact h4⟩

theorem i64_ext {i j : Int64} (h : i.toInt = j.toInt) : i = j := by
  cases i with | _ a =>
  cases j with | _ b =>
  have h1 : BitVec.toInt _ = BitVec.toInt _ := h
  have := BitVec.eq_of_toInt_eq h1
  cases a; cases b
  congr

theorem Plain.same {n : Nat} {inp : Heap} {v : Val} (hp : Plain n inp v) {cfg : ECfg} {c : ViewCfg}
    (hc : c.perlCompat = false) {rn : Bool} {t : Tree} (hw : Written cfg inp rn v t) {h' : Heap} {v' : Val}
    (hs : Shows c h' v' t) : Same inp h' v v' := by
  induction hp generalizing rn t v' with
  | nil =>
    cases hw
    cases hs with
    | undef => exact .nil
    | undefP h => rw [hc] at h; cases h
  | bool => cases hw; cases hs; exact .bool
  | @int k i =>
    cases hw
    rcases hs.int_inv with ⟨j, rfl, hj⟩ | ⟨u, rfl, _, hj⟩
    · rw [i64_ext hj]; exact .int
    · exfalso
      have := i.toInt_lt
      omega
  | uint =>
    cases hw
    rcases hs.int_inv with ⟨j, rfl, hj⟩ | ⟨u', rfl, h1, hj⟩
    · exact .uintSmall hj
    · have : _ = u' := UInt64.toNat.inj (Int.ofNat.inj hj).symm
      rw [this]; exact .uintBig h1
  | f32 => cases hw; cases hs; exact .f32
  | f64 => cases hw; cases hs; exact .f64
  | str => cases hw; cases hs; exact .str
  | bin => cases hw; cases hs; exact .bin
  | slice hl _ ih =>
    cases hw with
    | slice hW =>
      obtain ⟨p', rfl, h2⟩ := (Shows.refWrap hc hs).arr_inv
      exact .slice (fun i hi => ih i hi (hW i _ (List.getElem?_eq_getElem hi)) (h2 i _ (List.getElem?_eq_getElem hi)))
  | smap hl hnd _ _ ih =>
    cases hw with
    | @smap _ _ kts hperm hW =>
      obtain ⟨m', rfl, h2, h3, h4⟩ := (Shows.refWrap hc hs).map_inv
      refine .smap h2 (fun k => ?_) (fun k v v' hv hv' => ?_)
      · rw [h3, Bool.eq_iff_iff, mapLookup_isSome, lastLookup_isSome]
        exact hperm.mem_iff.symm
      · have h5 : (lastLookup k kts).isSome := by rw [← h3, hv']; rfl
        obtain ⟨t', ht'⟩ := Option.isSome_iff_exists.1 h5
        exact ih k v hv (hW k t' v (lastLookup_mem ht') hv) (h4 k v' t' hv' ht')

/-- Round trip of plain data. -/
theorem Plain.roundtrip {cfg : ECfg} {cs : Codecs} {inp : Heap} {header : Option Val} {v : Val} {doc : Bytes}
    (hp : Plain maxSize inp v) (hord : ∀ n ks, (cfg.ord n ks).Perm ks)
    (hver : cfg.version ≤ 3) (hc : cfg.compression = none) (h : marshalWithHeader cfg cs inp header v = .ok doc)
    (hsz : doc.length < 2 ^ 63) (dcfg : DCfg) (hd : dcfg.perlCompat = false) :
    ∃ h' v', unmarshal dcfg cs doc = .ok (h', v') ∧ Same inp h' v v' := by
  obtain ⟨t, hW, _, hr⟩ := raw_roundtrip hord hver hc h hsz
  obtain ⟨hs, hF⟩ := hp.tree dcfg.view hW
  obtain ⟨h', v', h1, h2⟩ := hr dcfg hF hs
  exact ⟨h', v', h1, hp.same hd hW h2⟩

end Sereal
