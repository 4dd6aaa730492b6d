import Verif.Spec.Registered
import Verif.Props.C18
import Verif.Props.C32
/-
C71: RegisterName decides what frozen objects become.
-/
namespace Sereal

/-! ### The calls -/

/-- RegisterName takes exactly the values with the method UnmarshalBinary; with others it panics, and then
nothing is registered or forgotten. -/
theorem C71_registers (c : UmCache) (name : Bytes) (value : Option GoType) :
    ((registerName c name value).1 = .ok () ↔ HasUnmarshal value) ∧
    (¬ HasUnmarshal value → ∃ m, (registerName c name value).1 = .error (.panic m) ∧
      ∀ cls, getUnmarshalerType (registerName c name value).2 cls = getUnmarshalerType c cls) := by
  cases value with
  | none =>
    refine ⟨⟨fun h => (by cases h), fun ⟨t, u, h, _⟩ => (by cases h)⟩, fun _ => ⟨_, rfl, fun cls => ?_⟩⟩
    cases c <;> rfl
  | some t =>
    cases hm : t.method with
    | none =>
      have h0 : registerName c name (some t) = (.error unaddressable, some (match c with | none => fun _ => none | some m => m)) := by
        cases c <;> simp [registerName, hm]
      rw [h0]
      refine ⟨⟨fun h => (by cases h), fun ⟨t', u, h, h'⟩ => (by cases h; rw [hm] at h'; cases h')⟩, fun _ => ⟨_, rfl, fun cls => ?_⟩⟩
      cases c <;> rfl
    | some u =>
      refine ⟨⟨fun _ => ⟨t, u, rfl, hm⟩, fun _ => by simp [registerName, hm]⟩, fun h => absurd ⟨t, u, rfl, hm⟩ h⟩

theorem getUnmarshalerType_register (c : UmCache) (name cls : Bytes) (value : Option GoType) :
    getUnmarshalerType (registerName c name value).2 cls =
      match value with
      | some t => if t.method.isSome = true ∧ cls = name then some t else getUnmarshalerType c cls
      | none => getUnmarshalerType c cls := by
  cases value with
  | none => cases c <;> rfl
  | some t =>
    cases hm : t.method with
    | none => cases c <;> simp [registerName, hm, getUnmarshalerType]
    | some u => cases c <;> simp [registerName, hm, getUnmarshalerType]

/-- After any row of calls, failed ones included, the last successful call for a name is in force. -/
theorem C71_inForce (calls : List (Bytes × Option GoType)) (cls : Bytes) :
    (∀ t, getUnmarshalerType (registerAll none calls) cls = some t ↔ InForce calls cls t) ∧
    (getUnmarshalerType (registerAll none calls) cls = none ↔ NotRegistered calls cls) := by
  -- read from the end
  obtain ⟨rev, rfl⟩ : ∃ r : List (Bytes × Option GoType), calls = r.reverse := ⟨_, (List.reverse_reverse _).symm⟩
  induction rev with
  | nil =>
    refine ⟨fun t => ⟨fun h => (by cases h), ?_⟩, ⟨fun _ v h => (by simp at h), fun _ => rfl⟩⟩
    rintro ⟨b, a, h, _⟩
    simp at h
  | cons x rev ih =>
    obtain ⟨name, value⟩ := x
    rw [List.reverse_cons]
    generalize rev.reverse = calls at ih ⊢
    have hstep : getUnmarshalerType (registerAll none (calls ++ [(name, value)])) cls =
        match value with
        | some t => if t.method.isSome = true ∧ cls = name then some t else getUnmarshalerType (registerAll none calls) cls
        | none => getUnmarshalerType (registerAll none calls) cls := by
      rw [registerAll, List.foldl_append]
      exact getUnmarshalerType_register _ _ _ _
    by_cases hit : cls = name ∧ HasUnmarshal value
    · obtain ⟨rfl, t, u, rfl, hm⟩ := hit
      rw [hstep]
      dsimp only
      rw [if_pos ⟨by rw [hm]; rfl, rfl⟩]
      refine ⟨fun t' => ⟨fun h => ?_, ?_⟩, ⟨fun h => (by cases h), fun h => absurd ⟨t, u, rfl, hm⟩ (h _ (by simp))⟩⟩
      · cases h
        exact ⟨calls, [], rfl, by rw [hm]; rfl, fun v h => by simp at h⟩
      · rintro ⟨b, a, h1, h2, h3⟩
        rcases List.eq_nil_or_concat a with rfl | ⟨a', y, rfl⟩
        · obtain ⟨-, h⟩ := List.append_inj' h1 rfl
          cases h; rfl
        · rw [List.concat_eq_append] at *
          have h1' : calls ++ [(cls, some t)] = (b ++ (cls, some t') :: a') ++ [y] := by simpa using h1
          obtain ⟨-, h⟩ := List.append_inj' h1' rfl
          cases h
          exact absurd ⟨t, u, rfl, hm⟩ (h3 _ (by simp))
    · have hold : getUnmarshalerType (registerAll none (calls ++ [(name, value)])) cls =
          getUnmarshalerType (registerAll none calls) cls := by
        rw [hstep]
        cases value with
        | none => rfl
        | some t =>
          dsimp only
          rw [if_neg]
          rintro ⟨h1, h2⟩
          obtain ⟨u, hu⟩ := Option.isSome_iff_exists.1 h1
          exact hit ⟨h2, t, u, rfl, hu⟩
      rw [hold]
      refine ⟨fun t => (ih.1 t).trans ⟨?_, ?_⟩, ih.2.trans ⟨fun h v hv => ?_, fun h v hv => h v (by simp [hv])⟩⟩
      · rintro ⟨b, a, h1, h2, h3⟩
        refine ⟨b, a ++ [(name, value)], by rw [h1]; simp, h2, fun v hv => ?_⟩
        rcases List.mem_append.1 hv with hv | hv
        · exact h3 v hv
        · simp only [List.mem_singleton, Prod.mk.injEq] at hv
          obtain ⟨h4, rfl⟩ := hv
          exact fun h => hit ⟨h4, h⟩
      · rintro ⟨b, a, h1, h2, h3⟩
        rcases List.eq_nil_or_concat a with rfl | ⟨a', y, rfl⟩
        · obtain ⟨-, h⟩ := List.append_inj' h1 rfl
          cases h
          obtain ⟨u, hu⟩ := Option.isSome_iff_exists.1 h2
          exact absurd ⟨rfl, t, u, rfl, hu⟩ hit
        · rw [List.concat_eq_append] at *
          have h1' : calls ++ [(name, value)] = (b ++ (cls, some t) :: a') ++ [y] := by simpa using h1
          obtain ⟨h, -⟩ := List.append_inj' h1' rfl
          exact ⟨b, a', h, h2, fun v hv => h3 v (by simp [hv])⟩
      · rcases List.mem_append.1 hv with hv | hv
        · exact h v hv
        · simp only [List.mem_singleton, Prod.mk.injEq] at hv
          obtain ⟨h4, rfl⟩ := hv
          exact fun h => hit ⟨h4, h⟩

/-! ### What Unmarshal does -/

/-- The decoder after these calls, without PerlCompat. -/
def decoderAfter (disableRefInt : Bool) (calls : List (Bytes × Option GoType)) : DCfg :=
  .of false disableRefInt (registerAll none calls)

theorem registry_inForce {ri : Bool} {calls : List (Bytes × Option GoType)} {cls : Bytes} {t : GoType}
    (h : InForce calls cls t) : (decoderAfter ri calls).view.registry cls = some (thaw t) := by
  show (getUnmarshalerType (registerAll none calls) cls).map thaw = _
  rw [((C71_inForce calls cls).1 t).2 h]; rfl

theorem registry_none {ri : Bool} {calls : List (Bytes × Option GoType)} {cls : Bytes}
    (h : NotRegistered calls cls) : (decoderAfter ri calls).view.registry cls = none := by
  show (getUnmarshalerType (registerAll none calls) cls).map thaw = _
  rw [(C71_inForce calls cls).2.2 h]; rfl

theorem thaw_pointer {t : GoType} {u : Bytes → Option Nat} (hp : t.pointer = true) (hm : t.method = some u) (d : Bytes) :
    thaw t d = (u d).map .user := by simp [thaw, instantiateZero, findUnmarshalerNew, hp, hm]

theorem thaw_bare {t : GoType} (hp : t.pointer = false) (d : Bytes) : thaw t d = some .unaddressable := by
  simp [thaw, instantiateZero, hp]

/-- The type of class `cls`, if it has one, is a pointer, and its UnmarshalBinary accepts `d`. -/
def Thaws (calls : List (Bytes × Option GoType)) (cls d : Bytes) : Prop :=
  ∀ t, InForce calls cls t → t.pointer = true ∧ ∃ u, t.method = some u ∧ u d = none

theorem Thaws.registry {ri : Bool} {calls : List (Bytes × Option GoType)} {cls d : Bytes} (h : Thaws calls cls d) :
    ∀ u, (decoderAfter ri calls).view.registry cls = some u → u d = none := by
  intro u hu
  obtain ⟨t, ht, rfl⟩ := Option.map_eq_some_iff.1 (hu : (getUnmarshalerType (registerAll none calls) cls).map thaw = _)
  obtain ⟨hp, m, hm, hd⟩ := h t (((C71_inForce calls cls).1 t).1 ht)
  rw [thaw_pointer hp hm, hd]; rfl

/-- The claim for a single object: after the calls, the object arrives as an instance of the type in force, or as
a PerlFreeze if there is none. -/
def Delivered (cs : Codecs) (dcfg : DCfg) (doc cls d : Bytes) (known : Prop) : Prop :=
  ∃ h a, unmarshal dcfg cs doc = .ok (h, .ptr false a) ∧
    (known → h.mem a = .cell (.thawed cls d)) ∧ (¬ known → h.mem a = .cell (.frozen cls d))

/-- C71 for classes whose type is a pointer (`Thaws`): after any row of RegisterName calls, a marshalled object
arrives as a new instance of the type of the last successful call for its class, if that type's UnmarshalBinary
accepts the data; if there was no such call, as a PerlFreeze. -/
theorem C71_partial (calls : List (Bytes × Option GoType)) (ri : Bool) (cfg : ECfg) (cs : Codecs) (inp : Heap)
    (header : Option Val) (cls d : Bytes) (under : Val) (doc : Bytes)
    (hver : cfg.version ≤ 3) (hord : ∀ n ks, (cfg.ord n ks).Perm ks) (hc : cfg.compression = none)
    (hf : cfg.disableFreeze = false) (hcls : cls.length ≤ 2 ^ 31 - 1) (hd : d.length ≤ 2 ^ 31 - 1)
    (h : marshalWithHeader cfg cs inp header (.marshaler cls (.ok d) under) = .ok doc) (hsz : doc.length < 2 ^ 63)
    (ht : Thaws calls cls d) :
    Delivered cs (decoderAfter ri calls) doc cls d (∃ t, InForce calls cls t) := by
  obtain ⟨h', a, hu, h1, h2⟩ := (C33_partial cfg cs inp header _ doc (decoderAfter ri calls) hver hord hc hf h hsz).1
    cls d under rfl rfl hcls hd ht.registry
  refine ⟨h', a, hu, fun ⟨t, hk⟩ => h1 (by rw [registry_inForce hk]; rfl), fun hk => h2 ?_⟩
  cases hg : getUnmarshalerType (registerAll none calls) cls with
  | none => show (getUnmarshalerType (registerAll none calls) cls).map thaw = _; rw [hg]; rfl
  | some t => exact absurd ⟨t, ((C71_inForce calls cls).1 t).1 hg⟩ hk

/-- The same at every place of a value: `ArrivesAs.marshaler` is the claim for each object in it, and `Tidy` asks
`Thaws` of each (`Thaws.registry`). -/
theorem C71_anywhere_partial (calls : List (Bytes × Option GoType)) (ri : Bool) (cfg : ECfg) (cs : Codecs) (inp : Heap)
    (header : Option Val) (v : Val) (doc : Bytes)
    (hver : cfg.version ≤ 3) (hord : ∀ n ks, (cfg.ord n ks).Perm ks) (hc : cfg.compression = none)
    (hv : Tidy cfg (decoderAfter ri calls).view (2 ^ 31 - 1) inp v) (hu : Unshared cfg inp v)
    (h : marshalWithHeader cfg cs inp header v = .ok doc) (hsz : doc.length < 2 ^ 63) :
    (∃ h' v', unmarshal (decoderAfter ri calls) cs doc = .ok (h', v') ∧
      Arrives cfg (decoderAfter ri calls).view inp h' v v') ∧
    ∀ cls, ((decoderAfter ri calls).view.registry cls).isSome = true ↔ ∃ t, InForce calls cls t := by
  refine ⟨arrives cfg cs inp header v doc _ hver hord hc hv hu h hsz, fun cls => ⟨fun hs => ?_, ?_⟩⟩
  · obtain ⟨u, hu⟩ := Option.isSome_iff_exists.1 hs
    obtain ⟨t, ht, -⟩ := Option.map_eq_some_iff.1 (hu : (getUnmarshalerType (registerAll none calls) cls).map thaw = _)
    exact ⟨t, ((C71_inForce calls cls).1 t).1 ht⟩
  · rintro ⟨t, ht⟩
    rw [registry_inForce ht]; rfl

theorem StandsIn.shows {x t : Tree} (hs : StandsIn x t) {c : ViewCfg} {h : Heap} {v : Val} (hv : Shows c h v t) :
    ∃ v', Shows c h v' x := by
  induction hs generalizing v with
  | here => exact ⟨v, hv⟩
  | @arr t ts hm _ ih =>
    cases hv with
    | arr f h1 h2 =>
      obtain ⟨i, hi⟩ := List.getElem?_of_mem hm
      exact ih (h2 i t hi)
  | @map k t kvs hl _ ih =>
    cases hv with
    | map h1 h2 h3 h4 =>
      have := h3 k
      rw [hl] at this
      obtain ⟨w, hw⟩ := Option.isSome_iff_exists.1 this
      exact ih (h4 k w t hw hl)
  | ref _ ih => cases hv with
    | ref _ h => exact ih h
    | refP _ _ h => exact ih h
  | refp _ ih => cases hv with
    | refp _ _ h => exact ih h
    | refpI _ h => exact ih h
  | alias _ ih => cases hv with
    | alias h => exact ih h
  | weak _ ih => cases hv with
    | weak _ h => exact ih h
    | weakP _ _ h => exact ih h
  | obj _ ih => cases hv with
    | obj _ h => exact ih h
    | objP _ _ h => exact ih h

/-- Errors are not lost: a document with an object whose UnmarshalBinary refuses the data is refused, wherever
the object stands. -/
theorem C71_refused (calls : List (Bytes × Option GoType)) (ri : Bool) (cs : Codecs) (b : Bytes) (ver : Nat)
    (lenField suffix body : Bytes) (t : Tree) (j : Nat) (cls data : Bytes) (ty : GoType)
    (hd : IsDoc b ver 0 lenField suffix body)
    (ht : Denotes goDialect (itemBuf ver (headBytes ver 0 lenField suffix) body).1
      (itemBuf ver (headBytes ver 0 lenField suffix) body).2 t j)
    (hin : StandsIn (frozenTree cls data) t) (hty : InForce calls cls ty)
    (hno : ty.pointer = true → ∃ u n, ty.method = some u ∧ u data = some n) :
    ∀ r, unmarshal (decoderAfter ri calls) cs b ≠ .ok r := by
  rintro ⟨h, v⟩ hu
  obtain ⟨t', j', ⟨T', g'⟩, hs⟩ := C17_partial _ cs b ver lenField suffix body h v hd hu
  obtain ⟨T, g⟩ := ht
  obtain ⟨e, -, -⟩ := g.unique g'
  cases e
  obtain ⟨w, hw⟩ := hin.shows hs
  have hreg := registry_inForce (ri := ri) hty
  have hthaw : ∃ r, thaw ty data = some r := by
    cases hp : ty.pointer with
    | false => exact ⟨_, thaw_bare hp _⟩
    | true =>
      obtain ⟨u, n, h1, h2⟩ := hno hp
      exact ⟨.user n, by rw [thaw_pointer hp h1, h2]; rfl⟩
  obtain ⟨r, hr⟩ := hthaw
  cases hw with
  | frozen h1 _ _ _ =>
    rcases h1 with h1 | h1
    · cases h1
    · rw [hreg] at h1; cases h1
  | @thawed a _ _ p d' u _ h1 h2 h3 h4 h5 =>
    rw [hreg] at h1
    cases h1
    generalize hn : Val.slice p 1 = w at h3
    cases h3 with
    | refP h _ _ => cases h
    | ref _ h3 =>
      cases h3 with
      | arr f h6 h7 =>
        injection hn with hn
        subst hn
        have h8 := h6 0 (by simp)
        have h9 := h7 0 _ rfl
        rw [Nat.add_zero, h4] at h8
        rw [show f 0 = Val.bin d' by injection h8 with h8; exact h8.symm] at h9
        cases h9
        rw [hr] at h2
        cases h2

/-! ### Types that are not pointers -/

/-- The full claim: a value that has the method can be registered, and then its type is used. -/
def RegisteredIsUsed : Prop :=
  ∀ (calls : List (Bytes × Option GoType)) (cs : Codecs) (cls d : Bytes) (ty : GoType) (u : Bytes → Option Nat) (doc : Bytes),
    InForce calls cls ty → ty.method = some u → u d = none →
    marshal {} cs sampleHeap (.marshaler cls (.ok d) .nil) = .ok doc →
    Delivered cs (decoderAfter false calls) doc cls d True

/-- A map type, say, with `func (m M) UnmarshalBinary([]byte) error` that accepts everything. -/
def valueType : GoType := { name := [77], pointer := false, method := some fun _ => none }

/-- The pointer to it. -/
def pointerType : GoType := { name := [42, 77], pointer := true, method := some fun _ => none }

def frozenF : Bytes := [0x3d, 0xf3, 0x72, 0x6c, 3, 0, 0x32, 0x27, 1, 70, 0x28, 0x2b, 1, 0x61, 120]

/-- C71 is false for types that are not pointers: RegisterName takes them, but no document with an object of the
class can be unmarshalled any more, not even those that were accepted before (as PerlFreeze). -/
theorem C71_fails : ¬ RegisteredIsUsed ∧
    (∃ c, registerName none [70] (some valueType) = (.ok (), c)) ∧
    (unmarshal (decoderAfter false []) noCodecs frozenF).isOk = true ∧
    ∀ r, unmarshal (decoderAfter false [([70], some valueType)]) noCodecs frozenF ≠ .ok r := by
  have hno : ∀ r, unmarshal (decoderAfter false [([70], some valueType)]) noCodecs frozenF ≠ .ok r := by
    intro r hr
    have : (unmarshal (decoderAfter false [([70], some valueType)]) noCodecs frozenF).isOk = false := by decide +kernel
    rw [hr] at this
    cases this
  refine ⟨fun hall => ?_, ⟨_, rfl⟩, by decide +kernel, hno⟩
  obtain ⟨h, a, hu, -⟩ := hall [([70], some valueType)] noCodecs [70] [120] valueType (fun _ => none) frozenF
    ⟨[], [], rfl, rfl, by simp⟩ rfl rfl (by decide +kernel)
  exact hno _ hu

/-- A struct type with `func (t *T) UnmarshalBinary([]byte) error`: pointers to it have the method. -/
def structType : GoType := { name := [84], pointer := false, method := none, addrMethod := true }

/-- RegisterName looks for the method of the pointer, too, but never finds it: `rv.Addr()` panics for every value
whose own type lacks the method (decode.go:1293), and the message meant for this case (decode.go:1299) is never
shown. -/
theorem C71_fails_addr (c : UmCache) (name : Bytes) (t : GoType) (ht : t.method = none) :
    (registerName c name (some t)).1 = .error unaddressable := by
  simp [registerName, ht]

/-! Examples. -/

/-- Class F is registered twice, in between fails a call; class G once. -/
def regCalls : List (Bytes × Option GoType) :=
  [([70], some valueType), ([71], some valueType), ([70], some pointerType), ([70], some structType), ([70], none)]

example : InForce regCalls [70] pointerType := by
  refine ⟨[([70], some valueType), ([71], some valueType)], _, rfl, rfl, fun v hv => ?_⟩
  simp only [List.mem_cons, Prod.mk.injEq, true_and, List.not_mem_nil, or_false] at hv
  rcases hv with rfl | rfl
  · rintro ⟨t, u, h1, h2⟩; cases h1; cases h2
  · rintro ⟨t, u, h1, h2⟩; cases h1

example : Delivered noCodecs (decoderAfter true regCalls) frozenF [70] [120] True := by
  have hT : InForce regCalls [70] pointerType := by
    refine ⟨[([70], some valueType), ([71], some valueType)], _, rfl, rfl, fun v hv => ?_⟩
    simp only [List.mem_cons, Prod.mk.injEq, true_and, List.not_mem_nil, or_false] at hv
    rcases hv with rfl | rfl
    · rintro ⟨t, u, h1, h2⟩; cases h1; cases h2
    · rintro ⟨t, u, h1, h2⟩; cases h1
  obtain ⟨h, a, h1, h2, h3⟩ := C71_partial regCalls true {} noCodecs sampleHeap none [70] [120] .nil frozenF
    (by decide) (fun _ _ => .refl _) rfl rfl (by decide) (by decide) (by decide +kernel) (by decide) (fun t ht => by
      have e1 := ((C71_inForce regCalls [70]).1 t).2 ht
      rw [((C71_inForce regCalls [70]).1 _).2 hT] at e1
      cases e1
      exact ⟨rfl, _, rfl, rfl⟩)
  exact ⟨h, a, h1, fun _ => h2 ⟨_, hT⟩, fun hn => absurd trivial hn⟩

/-- An array of one object of class F, and a type whose method refuses its data: Unmarshal returns an error. -/
def bodyNested : Bytes := [0x2b, 1, 0x32, 0x61, 70, 0x28, 0x2b, 1, 0x61, 120]

def refusing : GoType := { name := [42, 82], pointer := true, method := some fun d => if d = [120] then some 7 else none }

example : ∀ r, unmarshal (decoderAfter false [([70], some refusing)]) noCodecs (doc3 bodyNested) ≠ .ok r :=
  C71_refused [([70], some refusing)] false noCodecs (doc3 bodyNested) 3 [0] [] bodyNested
    (.arr [frozenTree [70] [120]]) 11 [70] [120] refusing (doc3_isDoc (by decide))
    ⟨_, .plain (.here rfl (by decide)) (by decide) (.array (n := 1) (.here rfl (by decide) (by decide)) (by decide)
      (.itemsCons (.plain (.here rfl (by decide)) (by decide) (.freeze
        (.lit (.short (n := 1) (.here rfl (by decide)) (by decide) ⟨by decide, rfl⟩ rfl)) ⟨by decide, rfl⟩
        (.plain (.here rfl (by decide)) (by decide) (.refn (.plain (.here rfl (by decide)) (by decide)
          (.array (n := 1) (.here rfl (by decide) (by decide)) (by decide)
            (.itemsCons (.plain (.here rfl (by decide)) (by decide) (.short ⟨by decide, rfl⟩ rfl)) .itemsNil)))))))
        .itemsNil))⟩
    (.arr (List.mem_singleton.2 rfl) .here) ⟨[], [], rfl, rfl, by simp⟩ (fun _ => ⟨_, 7, rfl, by decide⟩)

/-- It is the error of the method. -/
example : (match unmarshal (decoderAfter false [([70], some refusing)]) noCodecs (doc3 bodyNested) with
    | .error (.err (.user n)) => some n | _ => none) = some 7 := by decide +kernel

end Sereal
