import Verif.Props.C06
/-
C72: references to other items are written only where a pointer is met again.
-/
namespace Sereal

/-- C72.  The document for a value in which no pointer is met twice holds no REFP and no ALIAS: the tree it
denotes has none.  Keys and class names may be COPY items (C06_copy). -/
theorem C72 (cfg : ECfg) (cs : Codecs) (inp : Heap) (header : Option Val) (v : Val) (doc : Bytes)
    (hver : cfg.version ≤ 3) (hord : ∀ n ks, (cfg.ord n ks).Perm ks) (hc : cfg.compression = none)
    (hu : Unshared cfg inp v) (h : marshalWithHeader cfg cs inp header v = .ok doc) (hsz : doc.length ≤ 2 ^ 31 - 1) :
    ∃ ver lf suf body t, IsDoc doc ver 0 lf suf body ∧ Written cfg inp false v t ∧ NoRefs t ∧
      Denotes wrtDialect (itemBuf ver (headBytes ver 0 lf suf) body).1
        (itemBuf ver (headBytes ver 0 lf suf) body).2 t
        (itemBuf ver (headBytes ver 0 lf suf) body).1.length := by
  obtain ⟨lf, suf, body, t, h1, _, h3, h4, h5⟩ := raw_denotes_alone hord hu hver hc h (by omega)
  exact ⟨_, lf, suf, body, t, h1, h3.1, h3.2, h5 (h4.mono hsz)⟩

/-- Non-vacuity: a value with three pointers (for the documents see C06). -/
example : Unshared {} ptrHeap (.slice 1 2) := ptr_unshared {}

/-- The condition is not idle: a pointer in two places is written as a REFP in the second. -/
example : marshal {} noCodecs sharedHeap (.smap 1) =
    .ok [0x3d, 0xf3, 0x72, 0x6c, 3, 0, 0x2a, 2, 0x27, 1, 97, 0xa8, 5, 0x27, 1, 98, 0x29, 6] := by decide +kernel

end Sereal
