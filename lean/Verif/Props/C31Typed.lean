import Verif.Props.C64
/-
C31: references in the place of typed items, to items that were decoded into an `interface{}`.
-/
namespace Sereal

/-- The Go value `v` is of the basic type `ty`; a variable of that type that holds it contains `w`. -/
inductive LeafOf : Val → Ty → MVal → Prop
  | bool {b} : LeafOf (.bool b) .bool (.bool b)
  | int {k i} : LeafOf (.int k i) (.int k) (.int i)
  | uint {k u} : LeafOf (.uint k u) (.uint k) (.uint u)
  | f32 {u} : LeafOf (.f32 u) .f32 (.f32 u)
  | f64 {u} : LeafOf (.f64 u) .f64 (.f64 u)
  | str {s} : LeafOf (.str s) .str (.str s)

theorem fromAny_iface {cfg : DCfg} {isREFP : Bool} {t : Target} {v : Val} (hr : ¬ (isREFP = true ∧ cfg.disableRefInt = true)) :
    Target.fromAny cfg isREFP t (.iface v) false = t.assignAny v := by
  unfold Target.fromAny
  funext s
  change (if isREFP = true ∧ cfg.disableRefInt = true then _ else _ : M Unit) s = _
  rw [if_neg hr]

/-- C31 for typed variables.  An ALIAS (or a REFP, unless the decoder is told to build references to interfaces) in the place of
a typed item, to an item that was decoded to a basic value: a variable of the same type gets the value; an `interface{}` gets it
with its type; for other types there is an error, and nothing changes. -/
theorem C31_leaf {cfg : DCfg} {buf : Bytes} {idx : Nat} {isREFP : Bool} {t : Target} {s : MSt} {offs : Int} {sz : Nat} {loc : Loc}
    {v : Val} {ty : Ty} {w : MVal} (hr : ¬ (isREFP = true ∧ cfg.disableRefInt = true))
    (hv : varintAt buf idx s.d = (.ok (offs, sz), s.d)) (ho : 0 ≤ offs) (hlt : offs < (idx + sz : Nat))
    (htr : s.d.tracked offs.toNat = some loc) (hty : s.typed offs.toNat = none) (hl : s.d.heap.read loc = v) (hw : LeafOf v ty w) :
    (t.ty = ty → refpMem cfg buf idx isREFP t s = (t.write w >>= fun _ => pure (idx + sz)) s) ∧
    (t.ty = .iface → refpMem cfg buf idx isREFP t s = (t.write (.iface v) >>= fun _ => pure (idx + sz)) s) ∧
    (t.ty ≠ ty → t.ty ≠ .iface → ∃ m, refpMem cfg buf idx isREFP t s = (.error (.panic m), s)) := by
  have hn : v ≠ .nil := by cases hw <;> simp
  have hu : v ≠ .unsupported := by cases hw <;> simp
  have hti : ty ≠ .iface := by cases hw <;> simp
  have e : refpMem cfg buf idx isREFP t s = (t.assignAny v >>= fun _ => pure (idx + sz)) s := by
    have h1 : M.lift (varintAt buf idx) s = (.ok (offs, sz), s) := by unfold M.lift; rw [hv]
    unfold refpMem
    simp only [bind, M.bind]
    rw [h1]
    dsimp only
    rw [show M.failIf (offs < 0 ∨ offs ≥ ↑(idx + sz)) (Exn.err (.corrupt .badOffset)) s = (.ok (), s) by
      unfold M.failIf; rw [if_neg (by omega)]; rfl]
    simp only [M.get]
    rw [htr]
    dsimp only
    rw [hty]
    have h2 : M.lift (readLoc loc) s = (.ok v, s) := by simp only [M.lift, readLoc, hl]
    dsimp only
    simp only [M.bind]
    rw [h2]
    dsimp only
    rw [if_neg hn]
    rw [fromAny_iface hr]
  rw [e]
  unfold Target.assignAny
  rw [if_neg hu]
  refine ⟨fun h => ?_, fun h => ?_, fun h h' => ?_⟩
  · rw [if_neg (by rw [h]; exact hti)]
    cases hw <;> simp only [Val.typed, Target.assign, h, if_true]
  · rw [if_pos h]
  · rw [if_neg h']
    cases hw <;> simp only [Val.typed, Target.assign, if_neg h, if_neg h'] <;> exact ⟨_, rfl⟩

/-- type T struct { A interface{}; B uint } -/
def aliasTypes : TCfg :=
  { noFloats with title := id, types := fun _ => ⟨[⟨[65], [], true, .iface⟩, ⟨[66], [], true, .uint .uint⟩], none⟩ }

/-- { "A": 2^64-1 (tracked), "B": ALIAS of it } -/
def docAliasUint : Bytes :=
  [0x3d, 0xf3, 0x72, 0x6c, 3, 0, 0x52, 0x61, 65, 0x80 + 0x20, 255, 255, 255, 255, 255, 255, 255, 255, 255, 1, 0x61, 66, 0x2e, 4]

example : (match (memoryAfter {} aliasTypes noCodecs docAliasUint (.strct 0) ⟨0, []⟩ { next := 1 }).get ⟨0, [(1, 2)]⟩ with
      | .uint u => some u
      | _ => none) = some 0xffffffffffffffff := by decide +kernel

end Sereal
