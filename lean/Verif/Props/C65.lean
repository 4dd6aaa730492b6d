import Verif.Proof.Modest
import Verif.Proof.Spend
import Verif.Props.C14
import Verif.Props.C28
import Verif.Props.C42
/-
C65: Unmarshal into a typed variable does not allocate more than the input warrants.
-/
namespace Sereal

theorem MVal.Over.mono {N N' : Nat} (h : N ≤ N') {v : MVal} (hv : v.Over N') : v.Over N := by
  induction hv with
  | slice h1 => exact .slice (by omega)
  | str h1 => exact .str (by omega)
  | «opaque» h1 => exact .opaque (by omega)
  | ifaceStr h1 => exact .ifaceStr (by omega)
  | ifaceBin h1 => exact .ifaceBin (by omega)
  | any _ ih => exact .any ih
  | multi h1 _ ih => exact .multi h1 ih

theorem Mem.Within.mono {N N' : Nat} (h : N ≤ N') {m : Mem} (hm : m.Within N) : m.Within N' :=
  ⟨fun b hb => hm.vars b (hb.mono h), fun b k v hk => ⟨Nat.le_trans (hm.maps b k v hk).1 h, fun hv => (hm.maps b k v hk).2 (hv.mono h)⟩⟩

theorem init_small (N : Nat) : DState.init.heap.Small N := by
  intro a
  unfold Heap.cellAt DState.init Heap.alloc Heap.set
  dsimp only
  by_cases h : a = Heap.init.next
  · rw [if_pos h]; trivial
  · rw [if_neg h]
    split
    · next v hv =>
      unfold Heap.init at hv
      dsimp only at hv
      split at hv
      · cases hv; trivial
      · cases hv; trivial
    · trivial

theorem gauge_next : Gauge Mem.next := ⟨fun _ _ _ => Nat.le_refl _, fun _ _ => Nat.le_refl _, fun _ => Nat.le_refl _, fun _ _ _ _ => Nat.le_succ _⟩

theorem mapInsert_length (k : Bytes) (v : MVal) (es : List (Bytes × MVal)) : (mapInsert k v es).length ≤ es.length + 1 := by
  induction es with
  | nil => exact Nat.le_refl _
  | cons e es ih =>
    obtain ⟨k', v'⟩ := e
    unfold mapInsert
    split
    · exact Nat.le_succ _
    · exact Nat.succ_le_succ ih

theorem gauge_map (a : Nat) : Gauge fun m => (m.maps a).length := by
  refine ⟨fun _ _ _ => Nat.le_refl _, fun _ _ => Nat.le_succ _, fun m => ?_, fun m b k v => ?_⟩
  · dsimp only [Mem.newMap]
    split
    · exact Nat.zero_le _
    · exact Nat.le_succ _
  · dsimp only [Mem.insert]
    split
    · exact mapInsert_length _ _ _
    · exact Nat.le_succ _

/-- After Unmarshal into a typed variable, whatever it returned, for every byte string and all types, with every decoder
flag: no slice in memory has more elements, and no string, key or argument of UnmarshalBinary more bytes, than there
were before (`N`) or there are bytes in the (decompressed) document (`m`). -/
theorem C65_sizes (cfg : DCfg) (tc : TCfg) (cs : Codecs) (b : Bytes) (ty : Ty) (l : Spot) (mem : Mem) {m N : Nat}
    (hm : InputBound cs b m) (hN : mem.Within N) : (memoryAfter cfg tc cs b ty l mem).Within (max N m) := by
  have h0 := hN.mono (Nat.le_max_left N m)
  unfold memoryAfter
  rw [bodyOf_eq]
  cases h : bodyInput cs b with
  | error e => exact h0
  | ok q =>
    obtain ⟨buf, i⟩ := q
    have hb := bodyInput_ok h hm
    exact (Modest.decode cfg tc (N := max N m) (by omega) _ i _ (Slim.var _ _ _) _
      ⟨h0, fun _ _ _ h => (by cases h), init_small _⟩).1.mem

/-- And the number of variables and maps that were made, as well as the number of entries that any one map has got,
is at most (K+2)·(m+1)·m, with `K` the greatest number of pointers in one of the types. -/
theorem C65_count (cfg : DCfg) (tc : TCfg) (cs : Codecs) (b : Bytes) (ty : Ty) (l : Spot) (mem : Mem) {m K : Nat}
    (hm : InputBound cs b m) (hK : ty.PtrsUpTo K tc) :
    (memoryAfter cfg tc cs b ty l mem).next ≤ mem.next + (K + 2) * (m + 1) * m ∧
    ∀ a, ((memoryAfter cfg tc cs b ty l mem).maps a).length ≤ (mem.maps a).length + (K + 2) * (m + 1) * m := by
  have key : ∀ f : Mem → Nat, Gauge f → f (memoryAfter cfg tc cs b ty l mem) ≤ f mem + (K + 2) * (m + 1) * m := by
    intro f hf
    unfold memoryAfter
    rw [bodyOf_eq]
    cases h : bodyInput cs b with
    | error e => exact Nat.le_add_right _ _
    | ok q =>
      obtain ⟨buf, i⟩ := q
      have hb := bodyInput_ok h hm
      have h1 := decodeMem_price hf (tc := tc) cfg buf hK.2 (fuelFor buf.length) i ⟨ty, .var l, false⟩ ⟨DState.init, mem, fun _ => none⟩ hK.1 rfl
      have h2 : (K + 2) * (buf.length + 1) * buf.length ≤ (K + 2) * (m + 1) * m :=
        Nat.mul_le_mul (Nat.mul_le_mul_left _ (by omega)) hb
      exact Nat.le_trans h1 (Nat.add_le_add_left h2 _)
  exact ⟨key _ gauge_next, fun a => key _ (gauge_map a)⟩

/-- Twelve bytes that announce an array of 2^31-1 elements. -/
def docHuge : Bytes := [0x3d, 0xf3, 0x72, 0x6c, 3, 0, 0x2b, 0xff, 0xff, 0xff, 0xff, 7]

/-- `[{a: "b"}, {c: "d"}]`. -/
def docMaps : Bytes := [0x3d, 0xf3, 0x72, 0x6c, 3, 0, 0x42, 0x51, 0x61, 0x61, 0x61, 0x62, 0x51, 0x61, 0x63, 0x61, 0x64]

/-- Non-vacuity: into an empty `[]*map[string]string` the first document is rejected and nothing is made; the second
makes a slice, two pointers, two maps and an entry in each of them. -/
example (cs : Codecs) :
    InputBound cs docHuge 12 ∧ InputBound cs docMaps 17 ∧ ({ next := 1 } : Mem).Within 0 ∧
    (Ty.slice (.ptr (.map .str))).PtrsUpTo 1 noFloats ∧
    (memoryAfter {} noFloats dummyCodecs docHuge (.slice (.ptr (.map .str))) ⟨0, []⟩ { next := 1 }).next = 1 ∧
    (memoryAfter {} noFloats dummyCodecs docMaps (.slice (.ptr (.map .str))) ⟨0, []⟩ { next := 1 }).next = 8 := by
  refine ⟨⟨by decide, Or.inl ⟨3, rfl, by decide⟩⟩, ⟨by decide, Or.inl ⟨3, rfl, by decide⟩⟩, ⟨fun b h => ?_, fun b k v h => ?_⟩, ⟨by decide, ?_⟩,
    by decide +kernel, by decide +kernel⟩
  · cases h
  · cases h
  · intro id f hf; cases hf

end Sereal
