import Verif.Proof.TwinMem
import Verif.Props.C55
import Verif.Props.C56
/-
C57: settings of the encoder that do not show in typed variables.
-/
namespace Sereal

/-- C57.  Two encoders that differ in protocol version, compression, threshold and deduplication, and
documents with different user headers: if both marshal the same value, ranging over maps in the same order,
then Unmarshal of either document into a variable of any type, with any contents of the memory before, has the
same outcome: the same error, or the same memory afterwards.  As C56, for typed variables. -/
theorem C57 (c1 c2 : ECfg) (cs : Codecs) (inp : Heap) (header1 header2 : Option Val) (v : Val)
    (doc1 doc2 raw1 raw2 : Bytes) (dcfg : DCfg) (tc : TCfg) (ty : Ty) (l : Spot) (mem : Mem) (ha : ECfg.Akin c1 c2)
    (hver1 : c1.version ≤ 3) (hver2 : c2.version ≤ 3) (hord : ∀ n ks, (c1.ord n ks).Perm ks)
    (hl1 : c1.compression = none ∨ (Lossless cs ∧ ¬ (c1.version = 1 ∧ c1.compression = some (.snappy true))))
    (hl2 : c2.compression = none ∨ (Lossless cs ∧ ¬ (c2.version = 1 ∧ c2.compression = some (.snappy true))))
    (h1 : marshalWithHeader c1 cs inp header1 v = .ok doc1)
    (h2 : marshalWithHeader c2 cs inp header2 v = .ok doc2)
    (hr1 : marshalWithHeader c1.uncompressed cs inp header1 v = .ok raw1)
    (hr2 : marshalWithHeader c2.uncompressed cs inp header2 v = .ok raw2)
    (hs1 : doc1.length ≤ 2 ^ 31 - 1) (hs2 : doc2.length ≤ 2 ^ 31 - 1)
    (hrs1 : raw1.length ≤ 2 ^ 31 - 1) (hrs2 : raw2.length ≤ 2 ^ 31 - 1) :
    unmarshalInto dcfg tc cs doc1 ty l mem = unmarshalInto dcfg tc cs doc2 ty l mem := by
  obtain ⟨w1, p1, q1, e1, l1, b1, z1⟩ := doc_body hver1 hl1 h1 hr1 hs1 hrs1
  obtain ⟨w2, p2, q2, e2, l2, b2, z2⟩ := doc_body hver2 hl2 h2 hr2 hs2 hrs2
  have ht := twin_encodeAfter ha hord (inp := inp) p1 p2 v
  rw [e1, e2] at ht
  obtain ⟨j1, j2, P, ht⟩ := ht q1 q2 l1 l2 z1 z2
  exact twin_unmarshalInto b1 b2 z1 z2 ht ty l mem

/-- C55 for compressed documents of all versions but the combination of C21_fails. -/
theorem C55_all (cfg : ECfg) (dcfg : DCfg) (tc : TCfg) (cs : Codecs) (inp : Heap) (A : Nat → Option Nat)
    (header : Option Val) (v : Val) (ty : Ty) (l : Spot) (mem : Mem) (doc raw : Bytes) (hcs : Lossless cs)
    (hver : cfg.version ≤ 3) (hcombo : ¬ (cfg.version = 1 ∧ cfg.compression = some (.snappy true)))
    (hord : ∀ n ks, (cfg.ord n ks).Perm ks) (hpc : dcfg.perlCompat = false)
    (hset : Settable tc) (hfl : Faithful tc) (hA : FitsAt tc inp A) (hv : Fit tc inp A ty v)
    (hl : ∀ x ∈ l.path, x.1 < x.2) (hb : l.base < mem.next) (hz : mem.get l = .zero)
    (h : marshalWithHeader cfg cs inp header v = .ok doc)
    (hr : marshalWithHeader cfg.uncompressed cs inp header v = .ok raw)
    (hsz : doc.length ≤ 2 ^ 31 - 1) (hrs : raw.length ≤ 2 ^ 31 - 1) :
    ∃ ρ h' mem', unmarshalInto dcfg tc cs doc ty l mem = .ok (h', mem') ∧ GraphCopy tc inp A ρ ty v l mem mem' := by
  rw [C57 cfg cfg.uncompressed cs inp header header v doc raw raw raw dcfg tc ty l mem ⟨rfl, rfl, rfl, rfl, rfl, rfl⟩ hver
    hver hord (.inr ⟨hcs, hcombo⟩) (.inl rfl) h hr hr hr hsz hrs hrs hrs]
  exact C55 cfg.uncompressed dcfg tc cs inp A header v ty l mem raw hver hord rfl hpc hset hfl hA hv hl hb hz hr hrs

/-! ### Examples -/

/-- The documents of the cyclic list of structs of C55 with version 1, without deduplication, and with the
default settings. -/
def ringDocs (old : Bool) : Bytes := (marshal (loopCfg old) noCodecs ringHeap (.ptr false 1)).toOption.getD []

/-- The documents differ. -/
example : ringDocs false ≠ ringDocs true := by decide +kernel

example (dcfg : DCfg) (tc : TCfg) (ty : Ty) (l : Spot) (mem : Mem) :
    unmarshalInto dcfg tc noCodecs (ringDocs false) ty l mem = unmarshalInto dcfg tc noCodecs (ringDocs true) ty l mem :=
  C57 (loopCfg false) (loopCfg true) noCodecs ringHeap none none (.ptr false 1) _ _ (ringDocs false) (ringDocs true) dcfg tc
    ty l mem ⟨rfl, rfl, rfl, rfl, rfl, rfl⟩ (by decide) (by decide) (fun _ ks => List.Perm.refl ks) (.inl rfl) (.inl rfl)
    (by decide +kernel) (by decide +kernel) (by decide +kernel) (by decide +kernel) (by decide +kernel)
    (by decide +kernel) (by decide +kernel) (by decide +kernel)

/-- And that outcome is a success, for a variable of the right type. -/
example : (unmarshalInto {} ringTypes noCodecs (ringDocs true) (.ptr (.strct 0)) ⟨0, []⟩ { next := 1 }).isOk = true := by
  decide +kernel

end Sereal
