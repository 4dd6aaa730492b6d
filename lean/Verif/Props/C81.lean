import Verif.Proof.Usual
import Verif.Props.C01
import Verif.Props.C06
import Verif.Props.C17
/-
C81: Unmarshal makes values of a few types only.
-/
namespace Sereal

theorem Usually.withTracked {P : DCfg} {x : D α} {Q : α → Prop} (h : Usually P x Q) : Usually P (Sereal.withTracked x) Q := by
  intro s hs
  obtain ⟨h1, h2⟩ := h { s with tracked := fun _ => none } hs
  unfold Sereal.withTracked
  rcases hr : x { s with tracked := fun _ => none } with ⟨r, s'⟩
  rw [hr] at h1 h2
  exact ⟨h1, h2⟩

theorem Usually.decodeAt {P : DCfg} (buf : Bytes) (i : Nat) (ptr : Loc) :
    Usually P (do let _ ← Sereal.withTracked (decode P buf (fuelFor buf.length) i ptr); Pure.pure ()) fun _ => True :=
  .bind' (.withTracked (decode_usual P _ _ _)) fun _ => .pure trivial

theorem Usually.sliceFrom {P : DCfg} (buf : Bytes) (i : Nat) : Usually P (Sereal.sliceFrom buf i) fun _ => True := by
  unfold Sereal.sliceFrom
  exact .ite (.pure trivial) (.fail _)

theorem unmarshalRaw_usual (cfg : DCfg) (cs : Codecs) (b : Bytes) (vheader vbody : Option Loc) :
    Usually cfg (unmarshalRaw cfg cs b vheader vbody) fun _ => True := by
  unfold unmarshalRaw
  refine .bind' (.lift _) fun header => .bind' (.lift _) fun decomp => .bind .failIf fun _ _ => ?_
  have fin : ∀ (ptr : Loc) (b : Bytes), Usually cfg (if header.version = 1 then do
          let _ ← Sereal.withTracked (decode cfg b (fuelFor b.length) (wrapInt (headerSize + header.suffixSize)).toNat ptr)
        else do
          D.failIf ((wrapInt (headerSize + header.suffixSize)).toNat = 0) (.crash "slice bounds out of range")
          let by_ ← Sereal.sliceFrom b ((wrapInt (headerSize + header.suffixSize)).toNat - 1)
          let _ ← Sereal.withTracked (decode cfg by_ (fuelFor by_.length) 1 ptr)) fun _ => True := fun ptr b =>
    .ite (.decodeAt _ _ _) (.bind .failIf fun _ _ => .bind' (.sliceFrom _ _) fun _ => .decodeAt _ _ _)
  have fin' : ∀ (ptr : Loc) (c : Compressor), Usually cfg (do
          let t ← Sereal.sliceFrom b (wrapInt (headerSize + header.suffixSize)).toNat
          let decompBody ← D.lift (decompress cs c t)
          let head ← Sereal.sliceRange b 0 (wrapInt (headerSize + header.suffixSize)).toNat
          let b := head ++ decompBody
          if header.version = 1 then
            let _ ← Sereal.withTracked (decode cfg b (fuelFor b.length) (wrapInt (headerSize + header.suffixSize)).toNat ptr)
          else
            D.failIf ((wrapInt (headerSize + header.suffixSize)).toNat = 0) (.crash "slice bounds out of range")
            let by_ ← Sereal.sliceFrom b ((wrapInt (headerSize + header.suffixSize)).toNat - 1)
            let _ ← Sereal.withTracked (decode cfg by_ (fuelFor by_.length) 1 ptr)) fun _ => True := fun ptr c =>
    .bind' (.sliceFrom _ _) fun _ => .bind' (.lift _) fun _ => .bind' (.sliceRange _ _) fun _ => fin ptr _
  have head : ∀ (ptr : Loc) (k : D Unit), Usually cfg k (fun _ => True) → Usually cfg (if header.suffixSize ≠ 1 then do
        let suffixFlags ← Sereal.byteAt b header.suffixStart
        if suffixFlags &&& 1 = 1 then do
          let by_ ← Sereal.sliceRange b 0 (wrapInt (headerSize + header.suffixSize)).toNat
          let _ ← Sereal.withTracked (decode cfg by_ (fuelFor by_.length) (header.suffixStart + 1) ptr)
          k
        else k
      else k) fun _ => True := fun ptr k hk =>
    .ite (.bind' (.byteAt _ _) fun _ => .ite (.bind' (.sliceRange _ _) fun _ =>
      .bind' (.withTracked (decode_usual cfg _ _ _)) fun _ => hk) hk) hk
  cases vheader with
  | none =>
    cases vbody with
    | none => exact .pure trivial
    | some ptr =>
      cases decomp with
      | none => exact fin ptr b
      | some c => exact fin' ptr c
  | some hptr =>
    cases vbody with
    | none => exact head hptr _ (.pure trivial)
    | some ptr =>
      cases decomp with
      | none => exact head hptr _ (fin ptr b)
      | some c => exact head hptr _ (fin' ptr c)

/-- C81, for a call of UnmarshalHeaderBody in any memory that has such values only, whether it succeeds or not. -/
theorem C81_call (cfg : DCfg) (cs : Codecs) (b : Bytes) (vheader vbody : Option Loc) (s : DState) (hs : s.heap.Usual cfg) :
    (unmarshalHeaderBody cfg cs b vheader vbody s).2.heap.Usual cfg :=
  (unmarshalRaw_usual cfg cs b vheader vbody s hs).1

theorem init_usual (cfg : DCfg) : DState.init.heap.Usual cfg := by
  refine Heap.Usual.set (h := Heap.init) ⟨fun a => ?_, fun m k v => ?_⟩ 1 (v := .nil) trivial
  · unfold Heap.cellAt Heap.init
    dsimp only
    by_cases ha : a = canonicalUndefAddr
    · rw [if_pos ha]; exact .inr rfl
    · rw [if_neg ha]; trivial
  · unfold Heap.mapAt Heap.init
    dsimp only
    by_cases ha : m = canonicalUndefAddr
    · rw [if_pos ha]; intro e; cases e
    · rw [if_neg ha]; intro e; cases e

/-- C81.  Whatever Unmarshal, UnmarshalHeader or UnmarshalHeaderBody return, everything that can be reached from the result is
of the kinds listed in `Val.Usual`: for all documents, all settings, all registered classes. -/
theorem C81 (cfg : DCfg) (cs : Codecs) (b : Bytes) :
    (∀ h v, unmarshal cfg cs b = .ok (h, v) → ∀ c u, ReachesVal c h v u → u.Usual cfg) ∧
    (∀ h v, unmarshalHeader cfg cs b = .ok (h, v) → ∀ c u, ReachesVal c h v u → u.Usual cfg) ∧
    (∀ h hd v, unmarshalBoth cfg cs b = .ok (h, hd, v) →
      ∀ c u, ReachesVal c h hd u ∨ ReachesVal c h v u → u.Usual cfg) := by
  have reach : ∀ {h : Heap} {v : Val} {c : ECfg} {u : Val}, h.Usual cfg → v.Usual cfg → ReachesVal c h v u → u.Usual cfg := by
    intro h v c u hh hv hr
    induction hr with
    | refl => exact hv
    | step _ hl ih => exact Usual.leads hh ih hl
  refine ⟨fun h v hu c u hr => ?_, fun h v hu c u hr => ?_, fun h hd v hu c u hr => ?_⟩
  · obtain ⟨h1, h2⟩ := unmarshal_usual hu
    exact reach h1 h2 hr
  · have := C81_call cfg cs b (some (.cell 1)) none DState.init (init_usual cfg)
    unfold unmarshalHeader at hu
    rcases hx : unmarshalHeaderBody cfg cs b (some (.cell 1)) none DState.init with ⟨r, s⟩
    rw [hx] at this hu
    cases r with
    | error e => cases hu
    | ok x => cases hu; exact reach this (this.cell 1) hr
  · have := C81_call cfg cs b (some (.cell 1)) (some (.cell 2)) DState.init2 ((init_usual cfg).set DState.init.heap.next (v := .nil) trivial)
    unfold unmarshalBoth at hu
    rcases hx : unmarshalHeaderBody cfg cs b (some (.cell 1)) (some (.cell 2)) DState.init2 with ⟨r, s⟩
    rw [hx] at this hu
    cases r with
    | error e => cases hu
    | ok x =>
      cases hu
      rcases hr with hr | hr
      · exact reach this (this.cell 1) hr
      · exact reach this (this.cell 2) hr

/-- Integers, on their own: whatever is reached and is an integer is an int, or a uint that is no int. -/
theorem C81_integers (cfg : DCfg) (cs : Codecs) (b : Bytes) (h : Heap) (v : Val) (hu : unmarshal cfg cs b = .ok (h, v)) (c : ECfg) :
    (∀ k i, ReachesVal c h v (.int k i) → k = .int) ∧
    (∀ k n, ReachesVal c h v (.uint k n) → k = .uint ∧ 2 ^ 63 ≤ n.toNat) ∧
    (∀ s, ¬ ReachesVal c h v (.jnum s)) ∧ ¬ ReachesVal c h v .nilptr := by
  have hc := (C81 cfg cs b).1 h v hu c
  refine ⟨fun k i hr => ?_, fun k n hr => ?_, fun s hr => (hc _ hr).elim, fun hr => (hc _ hr).elim⟩
  · have := hc _ hr
    cases k <;> first | rfl | exact this.elim
  · have := hc _ hr
    cases k <;> first | exact ⟨rfl, this⟩ | exact this.elim

theorem Shows.shape {cfg : DCfg} {h : Heap} {v : Val} {t : Tree} (hs : Shows cfg.view h v t) (hc : t.Closed) : Shape cfg h v := by
  induction hs with
  | undef _ => exact .nil
  | cundef _ => exact .nil
  | undefP hp hm => exact .undef hp (Heap.cellAt_eq hm)
  | cundefP hp hm => exact .undef hp (Heap.cellAt_eq hm)
  | bool => exact .bool
  | int => exact .int
  | uint hu => exact .uint hu
  | f32 => exact .f32
  | f64 => exact .f64
  | str => exact .str
  | bin => exact .bin
  | arr f hm _ ih =>
    cases hc with
    | arr hc =>
      refine .slice fun i hi => ?_
      rw [Heap.cellAt_eq (hm i hi)]
      exact ih i _ (List.getElem?_eq_getElem hi) (hc _ (List.getElem_mem hi))
  | @map m kvs es hm _ hdom _ ih =>
    cases hc with
    | map hc =>
      refine .smap fun k x e => ?_
      unfold Heap.mapAt at e
      rw [hm] at e
      have hsome : (lastLookup k kvs).isSome = true := by rw [← hdom, e]; rfl
      obtain ⟨t, et⟩ := Option.isSome_iff_exists.1 hsome
      exact ih k x t e et (hc k t (lastLookup_mem et))
  | ref _ _ ih => cases hc with | ref hc => exact ih hc
  | refP hp hm _ ih => cases hc with | ref hc => exact .ref hp (by rw [Heap.cellAt_eq hm]; exact ih hc)
  | refp hp hm _ ih => cases hc with | refp hc => exact .refp hp (by rw [Heap.cellAt_eq hm]; exact ih hc)
  | refpI _ _ ih => cases hc with | refp hc => exact ih hc
  | alias _ ih => cases hc with | alias hc => exact ih hc
  | openRef => cases hc
  | weak _ _ ih => cases hc with | weak hc => exact ih hc
  | weakP hp hm _ ih => cases hc with | weak hc => exact .weak hp (Heap.cellAt_eq hm) (ih hc)
  | obj _ _ ih => cases hc with | obj hc => exact ih hc
  | objP hp hm _ ih => cases hc with | obj hc => exact .obj hp (Heap.cellAt_eq hm) (ih hc)
  | regexp hm => exact .regexp (Heap.cellAt_eq hm)
  | frozen hp _ _ hm _ => exact .frozen hp (Heap.cellAt_eq hm)
  | @thawed a cls _ _ _ u hp hr _ _ _ hm _ =>
    exact .thawed hp (by rw [show cfg.registry cls = some u from hr]; rfl) (Heap.cellAt_eq hm)

/-- The types of perl.go are behind pointers of their own: what Unmarshal makes of a document, compressed or not, has the
form `Shape` if there is no reference in it to an item that encloses it (`i` is where the body begins in the decompressed
document `buf`). -/
theorem C81_shape (cfg : DCfg) (cs : Codecs) (b : Bytes) (h : Heap) (v : Val) (hu : unmarshal cfg cs b = .ok (h, v)) :
    ∃ buf i t j, bodyInput cs b = .ok (buf, i) ∧ Denotes goDialect buf i t j ∧ (t.Closed → Shape cfg h v) := by
  obtain ⟨buf, i, -, -, hb, -⟩ := unmarshal_ok.1 hu
  obtain ⟨t, j, hd, hs⟩ := unmarshal_sound hb hu
  exact ⟨buf, i, t, j, hb, hd, hs.shape⟩

/-- The same for an uncompressed document and any tree it denotes. -/
theorem C81_shape_raw (cfg : DCfg) (cs : Codecs) (b : Bytes) (ver : Nat) (lf suf body : Bytes) (h : Heap) (v : Val)
    (hd : IsDoc b ver 0 lf suf body) (hu : unmarshal cfg cs b = .ok (h, v)) (t : Tree) (j : Nat)
    (ht : Denotes goDialect (itemBuf ver (headBytes ver 0 lf suf) body).1 (itemBuf ver (headBytes ver 0 lf suf) body).2 t j)
    (hc : t.Closed) : Shape cfg h v := by
  obtain ⟨t', j', ⟨T', g'⟩, hs⟩ := C17_partial cfg cs b ver lf suf body h v hd hu
  obtain ⟨T, g⟩ := ht
  obtain ⟨e, _, _⟩ := g.unique g'
  cases e
  exact hs.shape hc

/-- 2^63 is unmarshalled to a uint, one less to an int. -/
def isUint (r : Res (Heap × Val)) (n : UInt64) : Bool :=
  match r with
  | .ok (_, .uint .uint m) => n = m
  | _ => false

example : isUint (unmarshal {} noCodecs [0x3d, 0xf3, 0x72, 0x6c, 3, 0, 0x20, 0x80, 0x80, 0x80, 0x80, 0x80, 0x80, 0x80, 0x80, 0x80, 1]) (2 ^ 63) = true ∧
    yieldsInt (unmarshal {} noCodecs [0x3d, 0xf3, 0x72, 0x6c, 3, 0, 0x20, 0xff, 0xff, 0xff, 0xff, 0xff, 0xff, 0xff, 0xff, 0x7f]) (2 ^ 63 - 1) = true := by
  decide +kernel

/-- A regular expression is a pointer to a PerlRegexp, without PerlCompat too. -/
example : (match unmarshal {} noCodecs [0x3d, 0xf3, 0x72, 0x6c, 3, 0, 0x31, 0x61, 97, 0x60] with
    | .ok (h, .ptr false a) => decide (h.cellAt a = .regexp [97] [])
    | _ => false) = true := by decide +kernel

example : Tree.Closed (.arr [.int 1, .refp (.str [97])]) := by
  refine .arr fun t ht => ?_
  rcases List.mem_cons.1 ht with rfl | ht
  · exact .int
  · cases List.mem_singleton.1 ht; exact .refp .str

/-- Kinds that are excluded. -/
example : ¬ Val.Usual {} (.int .int8 1) ∧ ¬ Val.Usual {} (.uint .uint 1) ∧ ¬ Val.Usual {} (.ptr true 5) ∧
    ¬ Val.Usual {} (.obj [65] .nil) ∧ ¬ Val.Usual {} (.thawed [65] []) ∧ Val.Usual { perlCompat := true } (.obj [65] .nil) := by
  refine ⟨id, fun h => absurd (show 2 ^ 63 ≤ (1 : UInt64).toNat from h) (by decide), fun h => ?_, fun h => ?_, fun h => ?_, rfl, trivial⟩
  · cases (show (false = true) from h)
  · cases (show (false = true) from h.1)
  · cases (show (false = true) from h)

end Sereal
