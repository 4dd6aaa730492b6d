import Verif.Proof.Writable
import Verif.Props.C26
/-
C66: which values Marshal writes.  C67: Marshal never crashes.
-/
namespace Sereal

/-- The limit an Encoder works with: MaxRecursionDepth, or 2^31-1 if that is not positive. -/
def Limit (cfg : ECfg) (n : Nat) : Prop :=
  (0 < n ∧ cfg.maxRecursionDepth = n) ∨ (cfg.maxRecursionDepth ≤ 0 ∧ n = 2147483647)

theorem Limit.eq {cfg : ECfg} {n : Nat} (h : Limit cfg n) : remainingRecursion cfg.maxRecursionDepth = (n - 1) + 1 := by
  unfold remainingRecursion
  rcases h with ⟨h1, h2⟩ | ⟨h1, h2⟩
  · rw [if_neg (by omega)]; omega
  · rw [if_pos h1]; omega

theorem encodeAfter_goes {cfg : ECfg} {inp : Heap} {n : Nat} (hn : Limit cfg n) {v : Val} {okp : Prop} {bad : Exn → Prop}
    (h : Goes (fun _ => False) okp bad 1 (encode cfg inp ((n - 1) + 1) v false false)) (pre : Bytes) :
    (okp ∧ ∃ w, encodeAfter cfg inp pre v = .ok w) ∨ ∃ e, encodeAfter cfg inp pre v = .error e ∧ bad e := by
  unfold encodeAfter
  rw [hn.eq]
  rcases h { buf := pre } (fun a o h => by cases h) (fun a h => h.elim) with ⟨h1, s, h2, -⟩ | ⟨e, h1, h2⟩
  · rw [h2]; exact .inl ⟨h1, _, rfl⟩
  · rw [h1]; exact .inr ⟨e, rfl, h2⟩

/-- The user header, if it is written. -/
def HeaderVal (cfg : ECfg) (header : Option Val) (hv : Val) : Prop := header = some hv ∧ 2 ≤ cfg.ver

theorem headerSuffix_goes {cfg : ECfg} {inp : Heap} {n : Nat} (hn : Limit cfg n) {header : Option Val} {okp : Prop}
    {bad : Exn → Prop} (hok : okp ∨ ∃ hv, HeaderVal cfg header hv)
    (h : ∀ hv, HeaderVal cfg header hv → Goes (fun _ => False) okp bad 1 (encode cfg inp ((n - 1) + 1) hv false false)) :
    (okp ∧ ∃ w, headerSuffix cfg inp header = .ok w) ∨ ∃ e, headerSuffix cfg inp header = .error e ∧ bad e := by
  have no : (¬ ∃ hv, HeaderVal cfg header hv) → headerSuffix cfg inp header = .ok [0] →
      (okp ∧ ∃ w, headerSuffix cfg inp header = .ok w) ∨ ∃ e, headerSuffix cfg inp header = .error e ∧ bad e :=
    fun h1 h2 => .inl ⟨hok.resolve_right h1, _, h2⟩
  cases header with
  | none => exact no (by rintro ⟨_, h, -⟩; cases h) rfl
  | some hv =>
    by_cases hver : 2 ≤ cfg.ver
    · have e : headerSuffix cfg inp (some hv) = (encodeAfter cfg inp [1] hv >>= fun suf =>
          Except.ok (varint (1 + suf.length) ++ 1 :: suf)) := by
        unfold headerSuffix
        exact if_pos hver
      rw [e]
      rcases encodeAfter_goes hn (h hv ⟨rfl, hver⟩) [1] with ⟨h1, w, h2⟩ | ⟨e, h1, h2⟩
      · rw [h2]; exact .inl ⟨h1, _, rfl⟩
      · rw [h1]; exact .inr ⟨e, rfl, h2⟩
    · refine no (by rintro ⟨_, -, h⟩; exact hver h) ?_
      unfold headerSuffix
      exact if_neg hver

/-- MarshalWithHeader from its two halves. -/
theorem marshalWithHeader_goes {cfg : ECfg} {cs : Codecs} {inp : Heap} {n : Nat} (hn : Limit cfg n) {header : Option Val}
    {v : Val} {okh okp : Prop} {bad : Exn → Prop} (hok : okh ∨ ∃ hv, HeaderVal cfg header hv) (hbad : ∀ e, bad e → Civil e)
    (hh : ∀ hv, HeaderVal cfg header hv → Goes (fun _ => False) okh bad 1 (encode cfg inp ((n - 1) + 1) hv false false))
    (hb : Goes (fun _ => False) okp bad 1 (encode cfg inp ((n - 1) + 1) v false false)) :
    (okh ∧ okp ∧ (cfg.compression = none → ∃ doc, marshalWithHeader cfg cs inp header v = .ok doc)) ∨
    (∃ e, marshalWithHeader cfg cs inp header v = .error (.err e) ∧
      (bad (.err e) ∨ ∃ m, bad (.panic m))) := by
  have err : ∀ e, bad e → marshalRaw cfg cs inp header v = .error e →
      ∃ e, marshalWithHeader cfg cs inp header v = .error (.err e) ∧ (bad (.err e) ∨ ∃ m, bad (.panic m)) := by
    intro e he hm
    unfold marshalWithHeader
    rw [hm]
    rcases hbad e he with ⟨x, rfl⟩ | ⟨m, rfl⟩
    · exact ⟨x, rfl, .inl he⟩
    · exact ⟨_, rfl, .inr ⟨m, he⟩⟩
  rcases headerSuffix_goes hn hok hh with ⟨h1, suf, h2⟩ | ⟨e, h1, h2⟩
  · rcases encodeAfter_goes hn hb (if cfg.ver = 1 then
      magicFor cfg.ver ++ (UInt8.ofNat cfg.ver ||| (UInt8.ofNat serealRaw <<< 4)) :: suf else [0]) with ⟨g1, w, g2⟩ | ⟨e, g1, g2⟩
    · refine .inl ⟨h1, g1, fun hc => ?_⟩
      unfold marshalWithHeader marshalRaw
      rw [h2]
      refine ⟨magicFor cfg.ver ++ (UInt8.ofNat cfg.ver ||| (UInt8.ofNat serealRaw <<< 4)) :: suf ++ w, ?_⟩
      dsimp only [bind, Except.bind]
      rw [g2, hc]
    · refine .inr (err e g2 ?_)
      unfold marshalRaw
      rw [h2]
      dsimp only [bind, Except.bind]
      rw [g1]
  · refine .inr (err e h2 ?_)
    unfold marshalRaw
    rw [h1]
    rfl

/-- C66.  `cfg` is any Encoder without compressor, `n` its recursion limit, `v` any value: data, structs,
pointers, Perl objects, cyclic or not; `header` the user header, if there is one.
* Marshal succeeds if header and body are `Writable` with n-1 levels of nesting.  Pointer cycles do not
  count, since a pointer met again inside of what it points to is written as a reference.
* Marshal returns an error if the body is `Stuck`: without passing a pointer one comes to a value Marshal
  has no form for or to one that is a level too many; likewise for the header in version 2 and 3.
* If Marshal has a form for everything inside header and body, it succeeds or returns
  ErrMaxRecursionLimit.
* Without pointers inside `v` (and no header): Marshal succeeds exactly if `v` is `Writable`; if Marshal has
  a form for everything inside, it returns ErrMaxRecursionLimit otherwise. -/
theorem C66 (cfg : ECfg) (cs : Codecs) (inp : Heap) (header : Option Val) (v : Val) (n : Nat)
    (hord : ∀ n ks, (cfg.ord n ks).Perm ks) (hc : cfg.compression = none) (hn : Limit cfg n) :
    ((∀ hv, HeaderVal cfg header hv → Writable cfg inp (fun _ => False) (n - 1) hv) →
      Writable cfg inp (fun _ => False) (n - 1) v → ∃ doc, marshalWithHeader cfg cs inp header v = .ok doc) ∧
    (((∃ hv, HeaderVal cfg header hv ∧ Stuck cfg inp (n - 1) hv) ∨ Stuck cfg inp (n - 1) v) →
      ∃ e, marshalWithHeader cfg cs inp header v = .error (.err e)) ∧
    ((∀ hv, HeaderVal cfg header hv → Handled cfg inp hv) → Handled cfg inp v →
      (∃ doc, marshalWithHeader cfg cs inp header v = .ok doc) ∨
      marshalWithHeader cfg cs inp header v = .error (.err .maxRecursion)) ∧
    (NoPointers cfg inp v →
      ((∃ doc, marshal cfg cs inp v = .ok doc) ↔ Writable cfg inp (fun _ => False) (n - 1) v) ∧
      (Handled cfg inp v → ¬ Writable cfg inp (fun _ => False) (n - 1) v →
        marshal cfg cs inp v = .error (.err .maxRecursion))) := by
  have ok : ∀ header, (∀ hv, HeaderVal cfg header hv → Writable cfg inp (fun _ => False) (n - 1) hv) →
      Writable cfg inp (fun _ => False) (n - 1) v → ∃ doc, marshalWithHeader cfg cs inp header v = .ok doc := by
    intro header h1 h2
    rcases marshalWithHeader_goes (cs := cs) hn (okh := True) (.inl trivial) (fun e h => h.elim)
      (fun hv h => encode_writable hord (h1 hv h) false false) (encode_writable hord h2 false false) with ⟨-, -, h⟩ | ⟨e, -, h | ⟨m, h⟩⟩
    · exact h hc
    · exact h.elim
    · exact h.elim
  have stuck : ∀ header, ((∃ hv, HeaderVal cfg header hv ∧ Stuck cfg inp (n - 1) hv) ∨ Stuck cfg inp (n - 1) v) →
      ∃ e, marshalWithHeader cfg cs inp header v = .error (.err e) := by
    rintro header (⟨hv, h1, h2⟩ | h2)
    · rcases marshalWithHeader_goes (cs := cs) hn (okh := False) (.inr ⟨hv, h1⟩) (fun e h => h)
        (fun hv' h => by obtain ⟨h3, h4⟩ := h; obtain ⟨h5, -⟩ := h1; rw [h5] at h3; cases h3; exact encode_stuck hord h2 false false)
        (encode_civil hord (n - 1) v false false) with ⟨h, -⟩ | ⟨e, h, -⟩
      · exact h.elim
      · exact ⟨e, h⟩
    · rcases marshalWithHeader_goes (cs := cs) hn (okh := True) (.inl trivial) (fun e h => h)
        (fun hv _ => encode_civil hord (n - 1) hv false false) (encode_stuck hord h2 false false) with ⟨-, h, -⟩ | ⟨e, h, -⟩
      · exact h.elim
      · exact ⟨e, h⟩
  have handled : ∀ header, (∀ hv, HeaderVal cfg header hv → Handled cfg inp hv) → Handled cfg inp v →
      (∃ doc, marshalWithHeader cfg cs inp header v = .ok doc) ∨
      marshalWithHeader cfg cs inp header v = .error (.err .maxRecursion) := by
    intro header h1 h2
    rcases marshalWithHeader_goes (cs := cs) hn (okh := True) (.inl trivial) (fun e h => .inl ⟨_, h⟩)
      (fun hv h => encode_handled hord (n - 1) (h1 hv h) false false) (encode_handled hord (n - 1) h2 false false)
      with ⟨-, -, h⟩ | ⟨e, h, h3 | ⟨m, h3⟩⟩
    · exact .inl (h hc)
    · cases h3; exact .inr h
    · cases h3
  have noh : ∀ hv, ¬ HeaderVal cfg none hv := by rintro hv ⟨h, -⟩; cases h
  refine ⟨ok header, stuck header, handled header, fun hp => ⟨⟨fun ⟨doc, hdoc⟩ => ?_, fun h => ok none (fun hv h => (noh hv h).elim) h⟩,
    fun hh hw => ?_⟩⟩
  · refine (writable_or_stuck hp _ _).resolve_right fun h => ?_
    obtain ⟨e, he⟩ := stuck none (.inr h)
    unfold marshal at hdoc
    rw [he] at hdoc
    cases hdoc
  · refine (handled none (fun hv h => (noh hv h).elim) hh).resolve_left ?_
    rintro ⟨doc, hdoc⟩
    obtain ⟨e, he⟩ := stuck none (.inr ((writable_or_stuck hp _ _).resolve_left hw))
    rw [he] at hdoc
    cases hdoc

/-- The compressors return errors or panic; they do not crash the program. -/
def TameCodecs (cs : Codecs) : Prop :=
  (∀ b e, cs.snappyEnc b = .error e → Civil e) ∧ (∀ l b e, cs.zlibEnc l b = .error e → Civil e) ∧
  (∀ l b e, cs.zstdEnc l b = .error e → Civil e)

theorem compress_civil {cs : Codecs} (ht : TameCodecs cs) {c : Compressor} {b : Bytes} {e : Exn}
    (h : compress cs c b = .error e) : Civil e := by
  cases c with
  | snappy inc =>
    unfold compress at h
    dsimp only [bind, Except.bind] at h
    split at h
    · cases h; exact .inl ⟨_, rfl⟩
    · cases h1 : cs.snappyEnc b with
      | error e' => rw [h1] at h; cases h; exact ht.1 b _ h1
      | ok x => rw [h1] at h; dsimp only at h; split at h <;> cases h
  | zlib l =>
    unfold compress at h
    dsimp only [bind, Except.bind] at h
    cases h1 : cs.zlibEnc (if l = 0 then zlibDefaultCompression else l) b with
    | error e' => rw [h1] at h; cases h; exact ht.2.1 _ b _ h1
    | ok x => rw [h1] at h; cases h
  | zstd l =>
    unfold compress at h
    dsimp only [bind, Except.bind] at h
    cases h1 : cs.zstdEnc (if l = 0 then zstdDefaultCompression else l) b with
    | error e' => rw [h1] at h; cases h; exact ht.2.2 _ b _ h1
    | ok x => rw [h1] at h; cases h

theorem doctype_civil {ver : Nat} {c : Compressor} {e : Exn} (h : compressionDoctype ver c = .error e) : Civil e := by
  unfold compressionDoctype at h
  cases c with
  | snappy inc =>
    dsimp only at h
    split at h
    · cases h; exact .inl ⟨_, rfl⟩
    · split at h <;> cases h
  | zlib l =>
    dsimp only at h
    split at h
    · cases h; exact .inl ⟨_, rfl⟩
    · cases h
  | zstd l => cases h; exact .inr ⟨_, rfl⟩

/-- C67.  Marshal and MarshalWithHeader return a document or an error, whatever the configuration and
the values: cyclic, nested too deep, with pointers of any kind, values there is no form for.  In
particular no offset in the pointer table is outside the buffer.  (Stack overflow is not modelled, and the
compressors must not crash.) -/
theorem C67 (cfg : ECfg) (cs : Codecs) (inp : Heap) (header : Option Val) (v : Val)
    (hord : ∀ n ks, (cfg.ord n ks).Perm ks) (ht : TameCodecs cs) :
    (∃ doc, marshalWithHeader cfg cs inp header v = .ok doc) ∨
    ∃ e, marshalWithHeader cfg cs inp header v = .error (.err e) := by
  have key : ∀ e, marshalRaw cfg cs inp header v = .error e → Civil e := by
    obtain ⟨n, hn⟩ : ∃ n, Limit cfg n := by
      by_cases h : cfg.maxRecursionDepth ≤ 0
      · exact ⟨_, .inr ⟨h, rfl⟩⟩
      · exact ⟨cfg.maxRecursionDepth.toNat, .inl ⟨by omega, by omega⟩⟩
    intro e h
    unfold marshalRaw at h
    rcases headerSuffix_goes (inp := inp) hn (okp := True) (.inl trivial) (fun hv _ => encode_civil hord (n - 1) hv false false) (header := header)
      with ⟨-, suf, h2⟩ | ⟨e', h1, h2⟩
    · rw [h2] at h
      dsimp only [bind, Except.bind] at h
      rcases encodeAfter_goes hn (encode_civil hord (n - 1) v false false) (if cfg.ver = 1 then
        magicFor cfg.ver ++ (UInt8.ofNat cfg.ver ||| (UInt8.ofNat serealRaw <<< 4)) :: suf else [0]) with ⟨-, w, g2⟩ | ⟨e', g1, g2⟩
      · rw [g2] at h
        dsimp only at h
        cases hc : cfg.compression with
        | none => rw [hc] at h; cases h
        | some c =>
          rw [hc] at h
          dsimp only at h
          split at h
          · cases h1 : compress cs c w with
            | error e' => rw [h1] at h; cases h; exact compress_civil ht h1
            | ok x =>
              rw [h1] at h
              dsimp only at h
              cases h3 : compressionDoctype cfg.ver c with
              | error e' => rw [h3] at h; cases h; exact doctype_civil h3
              | ok y => rw [h3] at h; cases h
          · cases h
      · rw [g1] at h; cases h; exact g2
    · rw [h1] at h; cases h; exact h2
  unfold marshalWithHeader
  cases hm : marshalRaw cfg cs inp header v with
  | ok doc => exact .inl ⟨doc, rfl⟩
  | error e =>
    rcases key e hm with ⟨x, rfl⟩ | ⟨m, rfl⟩
    · exact .inr ⟨x, rfl⟩
    · exact .inr ⟨_, rfl⟩

/-! ### Examples -/

/-- type T struct { Next *T; O interface{} }; t := &T{}; t.Next = t; t.O = PerlObject{"C", []interface{}{5}}. -/
def knotHeap : Heap where
  mem a := if a = 1 then .cell (.strct [84] 2) else
    if a = 2 then .flds [⟨[78], [], true, .ptr false 1⟩, ⟨[79], [], true, .obj [67] (.slice 3 1)⟩] else
    if a = 3 then .cell (.int .int 5) else .cell .nil
  next := 4

theorem knot_writable (cfg : ECfg) : Writable cfg knotHeap (fun _ => False) 3 (.ptr false 1) := by
  have fields : ∀ k f, WritesField (knotHeap.fieldsAt 2) k f →
      f = ⟨[78], [], true, .ptr false 1⟩ ∨ f = ⟨[79], [], true, .obj [67] (.slice 3 1)⟩ := by
    intro k f h
    have h := mapLookup_mem h
    simp [Heap.fieldsAt, knotHeap, effName] at h
    rcases h with ⟨-, rfl⟩ | ⟨-, rfl⟩
    · exact .inr rfl
    · exact .inl rfl
  have noPerl : ¬ PerlThing (knotHeap.cellAt 1) := id
  refine .ptr (a := 1) (.inr ⟨rfl, noPerl⟩) id (.level (v := .strct [84] 2) trivial ?_ ?_ ?_)
  · rintro ⟨k, f, hf, he⟩
    rcases fields k f hf with rfl | rfl <;> cases he
  · rintro a (h | ⟨h, -⟩) <;> cases h
  · intro w hw
    cases hw with
    | field hf =>
      rcases fields _ _ hf with rfl | rfl
      · exact .seen (a := 1) (.inr ⟨rfl, noPerl⟩) id (.inl rfl)
      · refine .same .obj (.level (v := .slice 3 1) trivial id ?_ ?_)
        · rintro a (h | ⟨h, -⟩) <;> cases h
        · intro w hw
          cases hw with
          | @elem _ _ i hi =>
            have : i = 0 := by omega
            subst this
            exact .plain trivial

/-- Non-vacuity: a pointer cycle with a Perl object needs 4 levels. -/
example : Writable {} knotHeap (fun _ => False) 3 (.ptr false 1) ∧ Limit { maxRecursionDepth := 4 } 4 ∧
    (marshal { maxRecursionDepth := 4 } noCodecs knotHeap (.ptr false 1)).isOk = true ∧
    marshal { maxRecursionDepth := 3 } noCodecs knotHeap (.ptr false 1) = .error (.err .maxRecursion) :=
  ⟨knot_writable {}, .inl ⟨by decide, rfl⟩, by decide +kernel, by decide +kernel⟩

/-- Non-vacuity: a channel in an object; a slice without pointers. -/
example : Stuck {} knotHeap 1 (.obj [67] .unsupported) ∧ NoPointers {} knotHeap (.slice 3 1) ∧ Handled {} knotHeap (.slice 3 1) := by
  have leads : ∀ w u, (w = .slice 3 1 ∨ w = .int .int 5) → Leads {} knotHeap w u → u = .slice 3 1 ∨ u = .int .int 5 := by
    rintro w u (rfl | rfl) (h | h | ⟨a, h | ⟨h, -⟩, -⟩)
    · cases h with
      | @elem _ _ i hi =>
        have : i = 0 := by omega
        subst this
        exact .inr rfl
    all_goals cases h
  refine ⟨.same .obj (.refused trivial), ⟨fun w => w = .slice 3 1 ∨ w = .int .int 5, .inl rfl, fun w hw => ⟨?_, fun u => leads w u hw⟩⟩,
    ⟨fun w => w = .slice 3 1 ∨ w = .int .int 5, .inl rfl, fun w hw => ⟨?_, fun u => leads w u hw⟩⟩⟩
  · rcases hw with rfl | rfl <;> rintro a (h | ⟨h, -⟩) <;> cases h
  · rcases hw with rfl | rfl <;> exact id

/-- Non-vacuity of C67: a compressor that panics on long input. -/
example : TameCodecs { noCodecs with snappyEnc := fun b => if b.length < 100 then .ok b else .error (.panic "too long") } := by
  refine ⟨fun b e h => ?_, fun l b e h => ?_, fun l b e h => ?_⟩
  · dsimp only at h
    split at h
    · cases h
    · cases h; exact .inr ⟨_, rfl⟩
  · cases h
  · cases h

end Sereal
