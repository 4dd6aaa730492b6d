import Verif.Proof.Bulk
import Verif.Props.C77
/-
C79: documents are not much longer than the data.
-/
namespace Sereal

/-- C79. An Encoder without compression writes at most 6 bytes and what the value takes up; a user header adds at most
9 bytes and what it takes up. -/
theorem C79 {cfg : ECfg} {cs : Codecs} {inp : Heap} {header : Option Val} {body : Val} {doc : Bytes} {n k : Nat}
    (hord : ∀ n ks, (cfg.ord n ks).Perm ks) (hc : cfg.compression = none) (hb : Bulk inp body n)
    (hh : ∀ hv, header = some hv → Bulk inp hv k)
    (e : marshalWithHeader cfg cs inp header body = .ok doc) (hlen : doc.length < 2 ^ 63 - 1) :
    doc.length ≤ 6 + n + (if header.isSome then 9 + k else 0) := by
  obtain ⟨suf, w, pre, e1, e2, hp, hd⟩ := marshalWithHeader_parts hc e
  have hw : w.length ≤ n := hb.after hord e2 (by omega)
  have hs : suf.length ≤ 1 + (if header.isSome then 9 + k else 0) := by
    cases header with
    | none => cases e1; simp
    | some hv =>
      change (if cfg.ver ≥ 2 then _ else _) = _ at e1
      split at e1
      · cases h : encodeAfter cfg inp [1] hv with
        | error er => rw [h] at e1; cases e1
        | ok s =>
          rw [h] at e1
          cases e1
          simp only [List.length_append, List.length_cons] at hd ⊢
          have := (hh hv rfl).after hord h (by simp only [List.length_cons, List.length_nil]; omega)
          have := varint_nine (n := 1 + s.length) (by omega)
          rw [if_pos (show (some hv).isSome = true from rfl)]
          omega
      · cases e1
        simp
  omega

/-- A struct with a string, a slice that contains the same pointer twice, and a map. -/
def bulkHeap : Heap where
  mem
  | 10 => .cell (.ptr false 20)
  | 11 => .cell (.ptr false 20)
  | 20 => .cell (.f64 5)
  | 7 => .mp [([97], .int .int 300)]
  | 3 => .flds [⟨[65], [], true, .str [104, 105]⟩, ⟨[66], [], true, .slice 10 2⟩, ⟨[67], [99], true, .smap 7⟩]
  | _ => .cell .nil
  next := 30

/-- It takes up 149 bytes. -/
theorem bulkHeap_strct : Bulk bulkHeap (.strct [84] 3) 149 := by
  have hs : Bulk bulkHeap (.slice 10 2) (11 + ((List.range 2).map fun _ => 9 + 9).sum) := by
    refine .slice (by decide) fun i hi => ?_
    match i, hi with
    | 0, _ => exact .ptr .f64
    | 1, _ => exact .ptr .f64
  have hm : Bulk bulkHeap (.smap 7) (11 + ((bulkHeap.mapAt 7).map fun e => 10 + e.1.length + 11).sum) := by
    refine .smap (cost := fun _ => 11) (by decide) fun k v hk => ?_
    change mapLookup k [([97], Val.int .int 300)] = some v at hk
    unfold mapLookup at hk
    split at hk
    · cases hk; exact .int
    · cases hk
  refine .strct (inp := bulkHeap) (a := 3) (name := [84])
    (cost := fun f => if f.name = [65] then 12 else if f.name = [66] then 47 else 33) (by decide) fun f hf => ?_
  change f ∈ [(⟨[65], [], true, .str [104, 105]⟩ : Field), ⟨[66], [], true, .slice 10 2⟩, ⟨[67], [99], true, .smap 7⟩] at hf
  simp only [List.mem_cons, List.not_mem_nil, or_false] at hf
  rcases hf with rfl | rfl | rfl
  · exact .str
  · exact hs
  · exact hm

/-- A document for it, and a user header. -/
example : ((marshalWithHeader {} noCodecs bulkHeap (some (.str [104])) (.strct [84] 3)).toOption.map List.length) = some 50 ∧
    Bulk bulkHeap (.str [104]) 11 ∧ 50 ≤ 6 + 149 + (9 + 11) := ⟨by decide +kernel, .str, by decide⟩

end Sereal
