import Verif.Spec.Writable
import Verif.Proof.Nest
import Verif.Proof.Round
/-
When encode succeeds, on all values.
-/
namespace Sereal

/-- The offsets in the pointer table are inside the buffer. -/
def InBuf (s : EState) : Prop := ∀ a o, s.ptrTable a = some o → o < s.buf.length

/-- What a successful action does to the state: at least `k` bytes more, no pointer forgotten. -/
structure WentOn (k : Nat) (s s' : EState) : Prop where
  inBuf : InBuf s'
  len : s.buf.length + k ≤ s'.buf.length
  ptrs : ∀ a, s.ptrTable a ≠ none → s'.ptrTable a ≠ none

/-- In every state that knows the pointers in `S`, the action succeeds (possible only if `okp`) or fails
with an error in `bad`. -/
def Goes (S : Addr → Prop) (okp : Prop) (bad : Exn → Prop) (k : Nat) (x : E Unit) : Prop :=
  ∀ s, InBuf s → (∀ a, S a → s.ptrTable a ≠ none) →
    (okp ∧ ∃ s', x s = .ok ((), s') ∧ WentOn k s s') ∨ ∃ e, x s = .error e ∧ bad e

/-- Errors and panics, which MarshalWithHeader turns into errors. -/
def Civil (e : Exn) : Prop := (∃ x, e = .err x) ∨ ∃ m, e = .panic m

/-- The recursion limit. -/
def AtLimit (e : Exn) : Prop := e = .err .maxRecursion

section
variable {S : Addr → Prop} {okp okp1 okp2 : Prop} {bad : Exn → Prop} {k k1 k2 : Nat}

theorem Goes.mono {S' : Addr → Prop} {okp' : Prop} {bad' : Exn → Prop} {k' : Nat} {x : E Unit} (h : Goes S okp bad k x)
    (hS : ∀ a, S a → S' a) (ho : okp → okp') (hb : ∀ e, bad e → bad' e) (hk : k' ≤ k) : Goes S' okp' bad' k' x := by
  intro s hs hp
  rcases h s hs (fun a ha => hp a (hS a ha)) with ⟨h1, s', h2, h3⟩ | ⟨e, h1, h2⟩
  · exact .inl ⟨ho h1, s', h2, h3.inBuf, by have := h3.len; omega, h3.ptrs⟩
  · exact .inr ⟨e, h1, hb e h2⟩

theorem Goes.bind {x : E Unit} {f : Unit → E Unit} (hx : Goes S okp1 bad k1 x) (hf : Goes S okp2 bad k2 (f ())) :
    Goes S (okp1 ∧ okp2) bad (k1 + k2) (x >>= f) := by
  intro s hs hp
  show (_ ∧ ∃ s', E.bind x f s = _ ∧ _) ∨ ∃ e, E.bind x f s = _ ∧ _
  unfold E.bind
  rcases hx s hs hp with ⟨h1, s1, h2, h3⟩ | ⟨e, h1, h2⟩
  · rw [h2]
    rcases hf s1 h3.inBuf (fun a ha => h3.ptrs a (hp a ha)) with ⟨g1, s2, g2, g3⟩ | ⟨e, g1, g2⟩
    · exact .inl ⟨⟨h1, g1⟩, s2, g2, g3.inBuf, by have := h3.len; have := g3.len; omega, fun a ha => g3.ptrs a (h3.ptrs a ha)⟩
    · exact .inr ⟨e, g1, g2⟩
  · rw [h1]; exact .inr ⟨e, rfl, h2⟩

theorem Goes.emit (w : Bytes) : Goes S True bad w.length (Sereal.emit w) := by
  intro s hs _
  refine .inl ⟨trivial, _, rfl, ?_, by simp, fun a ha => ha⟩
  intro a o ho
  have := hs a o ho
  simp only [List.length_append]
  omega

/-- After something written. -/
theorem Goes.emitting {w : Bytes} {f : Unit → E Unit} (hf : Goes S okp bad k (f ())) (hk : 1 ≤ w.length) :
    Goes S okp bad 1 (Sereal.emit w >>= f) :=
  ((Goes.emit w).bind hf).mono (fun _ h => h) (fun h => h.2) (fun _ h => h) (by omega)

theorem Goes.pure : Goes S True bad 0 (Pure.pure ()) := fun s hs _ => .inl ⟨trivial, s, rfl, hs, by omega, fun _ h => h⟩

theorem Goes.fail {e : Exn} (h : bad e) : Goes S okp bad k (E.fail e) := fun _ _ _ => .inr ⟨e, rfl, h⟩

theorem Goes.weaken {x : E Unit} (h : Goes S True bad k x) : Goes S (okp ∨ True) bad k x :=
  h.mono (fun _ h => h) (fun _ => .inr trivial) (fun _ h => h) (by omega)

theorem wentOn_remember {s : EState} {key w : Bytes} (hs : InBuf s) :
    WentOn w.length s ⟨s.buf ++ w, fun k' => if k' = key then some s.buf.length else s.strTable k', s.ptrTable, s.visits⟩ where
  inBuf a o ho := by
    have := hs a o ho
    simp only [List.length_append]
    omega
  len := by simp
  ptrs a ha := ha

theorem copyItem_pos (o : Nat) : 1 ≤ (copyItem o).length := by simp [copyItem]
theorem strItem_pos (s : Bytes) : 1 ≤ (strItem s).length := by simp [strItem]
theorem binItem_pos (s : Bytes) : 1 ≤ (binItem s).length := by unfold binItem; split <;> simp

theorem WentOn.less {k' : Nat} {s s' : EState} (h : WentOn k s s') (hk : k' ≤ k) : WentOn k' s s' :=
  ⟨h.inBuf, by have := h.len; omega, h.ptrs⟩

theorem Goes.string (c : ECfg) (t : Bytes) (b : Bool) : Goes S True bad 1 (encodeString c t b) := by
  unfold encodeString
  split
  · intro s hs hp
    show (_ ∧ ∃ s', E.bind E.get _ s = _ ∧ _) ∨ ∃ e, E.bind E.get _ s = _ ∧ _
    unfold E.bind E.get
    dsimp only
    cases s.strTable t with
    | some o => exact ((Goes.emit _).mono (fun _ h => h) id (fun _ h => h) (copyItem_pos o)) s hs hp
    | none => exact .inl ⟨trivial, _, rfl, (wentOn_remember hs).less (strItem_pos t)⟩
  · exact (Goes.emit _).mono (fun _ h => h) id (fun _ h => h) (strItem_pos t)

theorem Goes.bytes (c : ECfg) (t : Bytes) (b : Bool) : Goes S True bad 1 (encodeBytes c t b) := by
  unfold encodeBytes
  split
  · intro s hs hp
    show (_ ∧ ∃ s', E.bind E.get _ s = _ ∧ _) ∨ ∃ e, E.bind E.get _ s = _ ∧ _
    unfold E.bind E.get
    dsimp only
    cases s.strTable t with
    | some o => exact ((Goes.emit _).mono (fun _ h => h) id (fun _ h => h) (copyItem_pos o)) s hs hp
    | none => exact .inl ⟨trivial, _, rfl, (wentOn_remember hs).less (binItem_pos t)⟩
  · exact (Goes.emit _).mono (fun _ h => h) id (fun _ h => h) (binItem_pos t)

theorem goes_elems {rec : Val → E Unit} {vs : List Val} (h : ∀ v ∈ vs, Goes S True bad 1 (rec v))
    (hr : okp ∨ ∃ v ∈ vs, Goes S False bad 1 (rec v)) : Goes S okp bad 0 (encodeElems rec vs) := by
  induction vs generalizing okp with
  | nil =>
    rcases hr with hr | ⟨v, hv, _⟩
    · exact Goes.pure.mono (fun _ h => h) (fun _ => hr) (fun _ h => h) (by omega)
    · cases hv
  | cons v vs ih =>
    have tail : okp ∨ (∃ v ∈ vs, Goes S False bad 1 (rec v)) → Goes S okp bad 0 (encodeElems rec (v :: vs)) := fun hr =>
      ((h v (by simp)).bind (ih (fun w hw => h w (List.mem_cons_of_mem _ hw)) hr)).mono (fun _ h => h) (fun h => h.2)
        (fun _ h => h) (by omega)
    rcases hr with hr | ⟨w, hw, hr⟩
    · exact tail (.inl hr)
    · rcases List.mem_cons.1 hw with rfl | hw
      · refine (hr.bind (ih (okp := True) (fun w hw => h w (List.mem_cons_of_mem _ hw)) (.inl trivial))).mono (fun _ h => h)
          (fun h => h.1.elim) (fun _ h => h) (by omega)
      · exact tail (.inr ⟨w, hw, hr⟩)

theorem goes_pairs {key : Bytes → E Unit} {rec : Val → E Unit} {kvs : List (Bytes × Val)} {ks : List Bytes}
    (hk : ∀ k, Goes S True bad 1 (key k)) (h : ∀ k ∈ ks, Goes S True bad 1 (rec ((mapLookup k kvs).getD .nil)))
    (hr : okp ∨ ∃ k ∈ ks, Goes S False bad 1 (rec ((mapLookup k kvs).getD .nil))) :
    Goes S okp bad 0 (encodePairs key rec kvs ks) := by
  induction ks generalizing okp with
  | nil =>
    rcases hr with hr | ⟨v, hv, _⟩
    · exact Goes.pure.mono (fun _ h => h) (fun _ => hr) (fun _ h => h) (by omega)
    · cases hv
  | cons v vs ih =>
    have tail : okp ∨ (∃ k ∈ vs, Goes S False bad 1 (rec ((mapLookup k kvs).getD .nil))) →
        Goes S okp bad 0 (encodePairs key rec kvs (v :: vs)) := fun hr =>
      ((hk v).bind ((h v (by simp)).bind (ih (fun w hw => h w (List.mem_cons_of_mem _ hw)) hr))).mono (fun _ h => h)
        (fun h => h.2.2) (fun _ h => h) (by omega)
    rcases hr with hr | ⟨w, hw, hr⟩
    · exact tail (.inl hr)
    · rcases List.mem_cons.1 hw with rfl | hw
      · refine ((hk w).bind (hr.bind (ih (okp := True) (fun w hw => h w (List.mem_cons_of_mem _ hw)) (.inl trivial)))).mono
          (fun _ h => h) (fun h => h.2.1.elim) (fun _ h => h) (by omega)
      · exact tail (.inr ⟨w, hw, hr⟩)

/-- What happens to the field written under a name. -/
def fieldRun (rec : Val → E Unit) : Option Field → E Unit
  | none => pure ()
  | some f => if !f.exported then E.fail (.panic "reflect.Value.Interface: unexported field") else rec f.val

theorem encodeFields_cons (c : ECfg) (rec : Val → E Unit) (tags : List (Bytes × Field)) (k : Bytes) (ks : List Bytes) :
    encodeFields c rec tags (k :: ks) = (encodeString c k true >>= fun _ => fieldRun rec (mapLookup k tags) >>= fun _ =>
      encodeFields c rec tags ks) := by
  rw [encodeFields]
  cases mapLookup k tags with
  | none => rfl
  | some f => cases h : f.exported <;> simp [fieldRun, h]

theorem goes_fields {c : ECfg} {rec : Val → E Unit} {tags : List (Bytes × Field)} {ks : List Bytes}
    (h : ∀ k ∈ ks, Goes S True bad 0 (fieldRun rec (mapLookup k tags)))
    (hr : okp ∨ ∃ k ∈ ks, Goes S False bad 0 (fieldRun rec (mapLookup k tags))) :
    Goes S okp bad 0 (encodeFields c rec tags ks) := by
  induction ks generalizing okp with
  | nil =>
    rcases hr with hr | ⟨v, hv, _⟩
    · exact Goes.pure.mono (fun _ h => h) (fun _ => hr) (fun _ h => h) (by omega)
    · cases hv
  | cons v vs ih =>
    rw [encodeFields_cons]
    have tail : okp ∨ (∃ k ∈ vs, Goes S False bad 0 (fieldRun rec (mapLookup k tags))) →
        Goes S okp bad 0 (encodeString c v true >>= fun _ => fieldRun rec (mapLookup v tags) >>= fun _ =>
          encodeFields c rec tags vs) := fun hr =>
      ((Goes.string c v true).bind ((h v (by simp)).bind (ih (fun w hw => h w (List.mem_cons_of_mem _ hw)) hr))).mono
        (fun _ h => h) (fun h => h.2.2) (fun _ h => h) (by omega)
    rcases hr with hr | ⟨w, hw, hr⟩
    · exact tail (.inl hr)
    · rcases List.mem_cons.1 hw with rfl | hw
      · refine ((Goes.string c w true).bind (hr.bind (ih (okp := True) (fun w hw => h w (List.mem_cons_of_mem _ hw))
          (.inl trivial)))).mono (fun _ h => h) (fun h => h.2.1.elim) (fun _ h => h) (by omega)
      · exact tail (.inr ⟨w, hw, hr⟩)

theorem goes_range {c : ECfg} {ks : List Bytes} {f : List Bytes → E Unit} (h : ∀ n, Goes S okp bad k (f (c.ord n ks))) :
    Goes S okp bad k (rangeKeys c ks >>= f) := by
  intro s hs hp
  rcases h s.visits { s with visits := s.visits + 1 } hs hp with ⟨h1, s', h2, h3⟩ | h
  · exact .inl ⟨h1, s', h2, h3.inBuf, h3.len, h3.ptrs⟩
  · exact .inr h

theorem goes_arr {c : ECfg} {rec : Val → E Unit} {vs : List Val} {rn : Bool} (h : ∀ v ∈ vs, Goes S True bad 1 (rec v))
    (hr : okp ∨ ∃ v ∈ vs, Goes S False bad 1 (rec v)) : Goes S okp bad 1 (encodeArr c rec vs rn) := by
  have main : Goes S okp bad 1 (emit (typeARRAY :: varint vs.length) >>= fun _ => encodeElems rec vs) :=
    Goes.emitting (goes_elems h hr) (by rw [List.length_cons]; omega)
  unfold encodeArr
  split
  · exact Goes.emitting main (by decide)
  · exact main

theorem goes_mp {c : ECfg} (hord : ∀ n ks, (c.ord n ks).Perm ks) {rec : Val → E Unit} {kvs : List (Bytes × Val)}
    {rn via : Bool} (h : ∀ k v, mapLookup k kvs = some v → Goes S True bad 1 (rec v))
    (hr : okp ∨ ∃ k v, mapLookup k kvs = some v ∧ Goes S False bad 1 (rec v)) :
    Goes S okp bad 1 (encodeMp c rec kvs rn via) := by
  have main : Goes S okp bad 1 (emit (typeHASH :: varint kvs.length) >>= fun _ => rangeKeys c (kvs.map (·.1)) >>=
      encodePairs (fun k => encodeString c k via) rec kvs) := by
    refine Goes.emitting (k := 0) (goes_range fun n => goes_pairs (fun k => .string _ _ _) (fun k hk => ?_) ?_)
      (by rw [List.length_cons]; omega)
    · have h1 := (hord n _).mem_iff.1 hk
      obtain ⟨w, hw⟩ := Option.isSome_iff_exists.1 ((mapLookup_isSome k kvs).2 h1)
      rw [hw]
      exact h _ _ hw
    · rcases hr with hr | ⟨k, v, hk, hr⟩
      · exact .inl hr
      · refine .inr ⟨k, (hord n _).mem_iff.2 ((mapLookup_isSome k kvs).1 (by rw [hk]; rfl)), ?_⟩
        rw [hk]; exact hr
  unfold encodeMp
  split
  · exact Goes.emitting main (by decide)
  · exact main

theorem structTags_named (fs : List Field) (k : Bytes) (f : Field) :
    mapLookup k (structTags fs []) = some f ↔ WritesField fs k f := by
  rw [structTags_eq, insertAll_lookup]
  unfold WritesField
  simp [mapLookup]

theorem goes_strct {c : ECfg} (hord : ∀ n ks, (c.ord n ks).Perm ks) {rec : Val → E Unit} {name : Bytes} {fs : List Field}
    (h : ∀ k f, WritesField fs k f → (f.exported = false ∧ ∀ m, bad (.panic m)) ∨ (f.exported = true ∧ Goes S True bad 1 (rec f.val)))
    (hr : okp ∨ ∃ k f, WritesField fs k f ∧
      ((f.exported = false ∧ ∀ m, bad (.panic m)) ∨ (f.exported = true ∧ Goes S False bad 1 (rec f.val)))) :
    Goes S okp bad 1 (encodeStrct c rec name fs) := by
  have one : ∀ {q : Prop} (k f), mapLookup k (structTags fs []) = some f →
      ((f.exported = false ∧ ∀ m, bad (.panic m)) ∨ (f.exported = true ∧ Goes S q bad 1 (rec f.val))) →
      Goes S q bad 0 (fieldRun rec (mapLookup k (structTags fs []))) := by
    intro q k f hk hf
    rw [hk]
    show Goes S q bad 0 (if !f.exported then _ else _)
    rcases hf with ⟨h1, h2⟩ | ⟨h1, h2⟩
    · rw [h1]; exact .fail (h2 _)
    · rw [h1]; exact h2.mono (fun _ h => h) id (fun _ h => h) (by omega)
  have body : Goes S okp bad 0 (rangeKeys c ((structTags fs []).map (·.1)) >>= encodeFields c rec (structTags fs [])) := by
    refine goes_range fun n => goes_fields (fun k hk => ?_) ?_
    · obtain ⟨f, hf⟩ := Option.isSome_iff_exists.1 ((mapLookup_isSome k _).2 ((hord n _).mem_iff.1 hk))
      exact one k f hf (h k f ((structTags_named _ _ _).1 hf))
    · rcases hr with hr | ⟨k, f, hk, hr⟩
      · exact .inl hr
      · have hk' := (structTags_named _ _ _).2 hk
        exact .inr ⟨k, (hord n _).mem_iff.2 ((mapLookup_isSome k _).1 (by rw [hk']; rfl)), one k f hk' hr⟩
  have h2 : Goes S okp bad 1 (emit (typeHASH :: varint (structTags fs []).length) >>= fun _ =>
      rangeKeys c ((structTags fs []).map (·.1)) >>= encodeFields c rec (structTags fs [])) := Goes.emitting body (by rw [List.length_cons]; omega)
  unfold encodeStrct
  have h3 : Goes S okp bad 1 (encodeBytes c name true >>= fun _ => do
      if c.perlCompat then emit [typeREFN]
      emit (typeHASH :: varint (structTags fs []).length)
      rangeKeys c ((structTags fs []).map (·.1)) >>= encodeFields c rec (structTags fs [])) := by
    refine ((Goes.bytes c name true).bind (okp2 := okp) (k2 := 1) ?_).mono (fun _ h => h) (fun h => h.2) (fun _ h => h) (by omega)
    split
    · exact Goes.emitting h2 (by decide)
    · exact h2
  exact Goes.emitting h3 (by decide)

/-- A pointer that is not to a Perl struct. -/
theorem goes_ptr {c : ECfg} {inp : Heap} {rec : Val → Bool → E Unit} {i : Bool} {a : Addr}
    (ho : i = false → ¬ PerlThing (inp.cellAt a))
    (hstr : i = true → Stringy (inp.cellAt a) → ∀ m, bad (.panic m))
    (h : S a ∨ Goes (fun b => b = a ∨ S b) True bad 1 (rec (inp.cellAt a) true)) :
    Goes S True bad 1 (encodePtr c inp rec i a) := by
  unfold encodePtr
  have hperl : (!i && isPerlStruct (inp.cellAt a)) = false := by
    cases i
    · have := ho rfl
      revert this
      cases inp.cellAt a <;> simp [PerlThing, isPerlStruct]
    · rfl
  dsimp only
  rw [hperl, if_neg (by decide : ¬ false = true)]
  cases hg : getPointer c inp i a with
  | error e =>
    have : (∃ m, e = .panic m) ∧ i = true ∧ Stringy (inp.cellAt a) := by
      revert hg
      unfold getPointer
      cases inp.cellAt a <;> cases i <;> simp [Stringy] <;> (intro h; exact ⟨_, h.symm⟩)
    obtain ⟨⟨m, rfl⟩, h1, h2⟩ := this
    exact .fail (hstr h1 h2 m)
  | ok p =>
    intro s hs hp
    show (_ ∧ ∃ s', E.bind E.get _ s = _ ∧ _) ∨ ∃ e, E.bind E.get _ s = _ ∧ _
    unfold E.bind E.get
    dsimp only
    cases hf : findPtr s a p with
    | some o =>
      have hin : o < s.buf.length := by
        unfold findPtr at hf
        cases h1 : s.ptrTable a with
        | some o' => rw [h1] at hf; cases hf; exact hs _ _ h1
        | none =>
          rw [h1] at hf
          dsimp only at hf
          split at hf
          · exact hs _ _ hf
          · cases hf
      refine .inl ⟨trivial, ⟨(s.buf ++ (typeREFP :: varint o)).modify o (· ||| trackFlag), s.strTable, s.ptrTable, s.visits⟩, ?_, ?_⟩
      · show E.bind (emit _) _ s = _
        unfold E.bind emit setTrackFlag
        dsimp only
        rw [if_pos (by rw [List.length_append]; omega)]
      · refine ⟨fun b q hq => ?_, by simp, fun b hb => hb⟩
        have := hs b q hq
        simp only [List.length_modify, List.length_append]
        omega
    | none =>
      have hna : s.ptrTable a = none := by
        unfold findPtr at hf
        cases h1 : s.ptrTable a with
        | some o' => rw [h1] at hf; cases hf
        | none => rfl
      have hrec : Goes (fun b => b = a ∨ S b) True bad 1 (rec (inp.cellAt a) true) := by
        rcases h with h | h
        · exact (hp a h hna).elim
        · exact h
      have hs1 : InBuf ⟨s.buf ++ [typeREFN], s.strTable, fun a' => if a' = a then some s.buf.length else s.ptrTable a', s.visits⟩ := by
        intro b q hq
        dsimp only at hq ⊢
        simp only [List.length_append, List.length_cons, List.length_nil]
        split at hq
        · cases hq; omega
        · have := hs b q hq; omega
      have hk1 : ∀ b, s.ptrTable b ≠ none → (if b = a then some s.buf.length else s.ptrTable b) ≠ none := by
        intro b hb
        split
        · simp
        · exact hb
      have hk2 : ∀ b, (b = a ∨ S b) → (if b = a then some s.buf.length else s.ptrTable b) ≠ none := by
        rintro b (rfl | hb)
        · simp
        · exact hk1 b (hp b hb)
      show (_ ∧ ∃ s', E.bind (rec (inp.cellAt a) true) _ ⟨s.buf ++ [typeREFN], s.strTable,
        fun a' => if a' = a then some s.buf.length else s.ptrTable a', s.visits⟩ = _ ∧ _) ∨
        ∃ e, E.bind (rec (inp.cellAt a) true) _ ⟨s.buf ++ [typeREFN], s.strTable,
          fun a' => if a' = a then some s.buf.length else s.ptrTable a', s.visits⟩ = _ ∧ _
      unfold E.bind
      rcases hrec _ hs1 hk2 with ⟨_, s2, h2, h3⟩ | ⟨e, h1, h2⟩
      · rw [h2]
        dsimp only
        have hl := h3.len
        simp only [List.length_append, List.length_cons, List.length_nil] at hl
        by_cases hp0 : p ≠ 0
        · rw [if_pos hp0]
          refine .inl ⟨trivial, _, rfl, ?_, ?_, ?_⟩
          · intro b q hq
            dsimp only at hq ⊢
            split at hq
            · cases hq; omega
            · exact h3.inBuf b q hq
          · show s.buf.length + 1 ≤ s2.buf.length; omega
          · intro b hb
            show (if b = p then some (s.buf.length + 1) else s2.ptrTable b) ≠ none
            split
            · simp
            · exact h3.ptrs b (hk1 b hb)
        · rw [if_neg hp0]
          exact .inl ⟨trivial, s2, rfl, h3.inBuf, by omega, fun b hb => h3.ptrs b (hk1 b hb)⟩
      · rw [h1]; exact .inr ⟨e, rfl, h2⟩

end

/-! ### encode -/

/-- A value that is a level, on which encode can spend a level; not an ordinary pointer. -/
theorem goes_level {c : ECfg} {inp : Heap} (hord : ∀ n ks, (c.ord n ks).Perm ks) {S : Addr → Prop} {okp : Prop}
    {bad : Exn → Prop} {rec : Val → Bool → Bool → E Unit} {v : Val} (hl : Level v) (hv : ∀ a, ¬ OrdPtr inp v a)
    (hin : ∀ w, Inner inp v w → Goes S True bad 1 (rec w false false))
    (hre : Refused c inp v → ∀ m, bad (.panic m))
    (hr : okp ∨ Refused c inp v ∨ ∃ w, Inner inp v w ∧ Goes S False bad 1 (rec w false false)) (ik rn : Bool) :
    Goes S okp bad 1 (encodeVal c inp (some rec) v ik rn) := by
  cases v <;> first | exact hl.elim | skip
  case slice p n =>
    refine goes_arr (fun w hw => ?_) ?_
    · obtain ⟨i, hi, rfl⟩ := List.mem_map.1 hw
      exact hin _ (.elem (List.mem_range.1 hi))
    · rcases hr with hr | hr | ⟨w, hw, hr⟩
      · exact .inl hr
      · exact hr.elim
      · cases hw with
        | elem hi => exact .inr ⟨_, List.mem_map.2 ⟨_, List.mem_range.2 hi, rfl⟩, hr⟩
  case rslice p n =>
    refine goes_arr (fun w hw => ?_) ?_
    · obtain ⟨i, hi, rfl⟩ := List.mem_map.1 hw
      exact hin _ (.relem (List.mem_range.1 hi))
    · rcases hr with hr | hr | ⟨w, hw, hr⟩
      · exact .inl hr
      · exact hr.elim
      · cases hw with
        | relem hi => exact .inr ⟨_, List.mem_map.2 ⟨_, List.mem_range.2 hi, rfl⟩, hr⟩
  case smap m =>
    refine goes_mp hord (fun k w hw => hin _ (.entry hw)) ?_
    rcases hr with hr | hr | ⟨w, hw, hr⟩
    · exact .inl hr
    · exact hr.elim
    · cases hw with
      | entry hk => exact .inr ⟨_, _, hk, hr⟩
  case rmap m =>
    refine goes_mp hord (fun k w hw => hin _ (.rentry hw)) ?_
    rcases hr with hr | hr | ⟨w, hw, hr⟩
    · exact .inl hr
    · exact hr.elim
    · cases hw with
      | rentry hk => exact .inr ⟨_, _, hk, hr⟩
  case frozen cls d =>
    have n1 : WritesField [⟨nameClass, [], true, .str cls⟩, ⟨nameData, [], true, .bin d⟩] nameClass ⟨nameClass, [], true, .str cls⟩ := rfl
    have n2 : WritesField [⟨nameClass, [], true, .str cls⟩, ⟨nameData, [], true, .bin d⟩] nameData ⟨nameData, [], true, .bin d⟩ := rfl
    refine goes_strct hord (fun k f hf => ?_) ?_
    · have := mapLookup_mem hf
      simp [effName] at this
      rcases this with ⟨-, rfl⟩ | ⟨-, rfl⟩
      · exact .inr ⟨rfl, hin _ .data⟩
      · exact .inr ⟨rfl, hin _ .cls⟩
    · rcases hr with hr | hr | ⟨w, hw, hr⟩
      · exact .inl hr
      · exact hr.elim
      · cases hw with
        | cls => exact .inr ⟨_, _, n1, .inr ⟨rfl, hr⟩⟩
        | data => exact .inr ⟨_, _, n2, .inr ⟨rfl, hr⟩⟩
  case ptr i a =>
    cases i
    · by_cases hp : PerlThing (inp.cellAt a)
      · rw [encodeVal]
        unfold encodePtr
        have hperl : isPerlStruct (inp.cellAt a) = true := by
          revert hp
          cases inp.cellAt a <;> simp [PerlThing, isPerlStruct]
        dsimp only
        rw [hperl]
        show Goes S okp bad 1 (rec (inp.cellAt a) false false)
        rcases hr with hr | hr | ⟨w, hw, hr⟩
        · exact (hin _ (.perl hp)).mono (fun _ h => h) (fun _ => hr) (fun _ h => h) (Nat.le_refl _)
        · exact hr.elim
        · cases hw with
          | perl _ => exact hr.mono (fun _ h => h) (fun h => h.elim) (fun _ h => h) (Nat.le_refl _)
      · exact (hv a (.inr ⟨rfl, hp⟩)).elim
    · exact (hv a (.inl rfl)).elim
  case nilptr =>
    rcases hr with hr | hr | ⟨w, hw, hr⟩
    · exact (Goes.emit [typeREFN, typeUNDEF]).mono (fun _ h => h) (fun _ => hr) (fun _ h => h) (by decide)
    · exact hr.elim
    · cases hw
  case strct name a =>
    refine goes_strct hord (fun k f hf => ?_) ?_
    · cases he : f.exported with
      | false => exact .inl ⟨rfl, hre ⟨k, f, hf, he⟩⟩
      | true => exact .inr ⟨rfl, hin _ (.field hf)⟩
    · rcases hr with hr | ⟨k, f, hf, he⟩ | ⟨w, hw, hr⟩
      · exact .inl hr
      · exact .inr ⟨k, f, hf, .inl ⟨he, hre ⟨k, f, hf, he⟩⟩⟩
      · cases hw with
        | @field _ _ k f hf =>
          refine .inr ⟨k, f, hf, ?_⟩
          cases he : f.exported with
          | false => exact .inl ⟨rfl, hre ⟨k, f, hf, he⟩⟩
          | true => exact .inr ⟨rfl, hr⟩

theorem goes_plain {c : ECfg} {inp : Heap} {S : Addr → Prop} {bad : Exn → Prop}
    (rec : Option (Val → Bool → Bool → E Unit)) {v : Val} (hv : Plainly v) (ik rn : Bool) :
    Goes S True bad 1 (encodeVal c inp rec v ik rn) := by
  have one : ∀ w : Bytes, 1 ≤ w.length → Goes S True bad 1 (emit w) := fun w hw =>
    (Goes.emit w).mono (fun _ h => h) id (fun _ h => h) hw
  have int : ∀ b i, 1 ≤ (encodeInt b i).length := by
    intro b i
    unfold encodeInt
    repeat' split
    all_goals simp
  cases v <;> first | exact hv.elim | skip
  case nil => exact one _ (by decide)
  case bool => exact one _ (by simp)
  case int => exact one _ (int _ _)
  case uint => exact one _ (int _ _)
  case f32 => exact one _ (by simp [encodeFloat])
  case f64 => exact one _ (by simp [encodeDouble])
  case jnum s =>
    show Goes S True bad 1 (encodeJsonNumber c s ik)
    unfold encodeJsonNumber
    split
    · exact one _ (int _ _)
    · exact .string _ _ _
    · split
      · exact one _ (by simp [encodeDouble])
      · exact .string _ _ _
  case str => exact .string _ _ _
  case bin => exact .bytes _ _ _
  case undef => exact one _ (by simp)
  case regexp p m =>
    exact Goes.emitting (((Goes.bytes c p false).bind (Goes.bytes c m false)).mono (fun _ h => h) (fun _ => trivial) (fun _ h => h)
      (Nat.le_refl _)) (by decide)
  case nbool => exact one _ (by simp)
  case nint => exact one _ (int _ _)
  case nf32 => exact one _ (by simp [encodeFloat])
  case nf64 => exact one _ (by simp [encodeDouble])
  case nstr => exact .string _ _ _

theorem goes_freeze {c : ECfg} {inp : Heap} {S : Addr → Prop} {bad : Exn → Prop}
    (rec : Option (Val → Bool → Bool → E Unit)) {cls d : Bytes} {u : Val} (hf : c.disableFreeze = false) (ik rn : Bool) :
    Goes S True bad 1 (encodeVal c inp rec (.marshaler cls (.ok d) u) ik rn) := by
  rw [encodeVal, hf]
  exact Goes.emitting (k := 1) (((Goes.string c cls true).bind (okp2 := True) (k2 := 1)
    (Goes.emitting (k := 1) (Goes.emitting (k := 1) (Goes.bytes c d false) (by rw [List.length_cons]; omega)) (by decide))).mono (fun _ h => h) (fun _ => trivial)
    (fun _ h => h) (by omega)) (by decide)

/-- The value written in the place of another one. -/
theorem goes_same {c : ECfg} {inp : Heap} {S : Addr → Prop} {okp : Prop} {bad : Exn → Prop}
    {rec : Option (Val → Bool → Bool → E Unit)} {v w : Val} (hs : SameLevel c v w)
    (h : ∀ ik rn, Goes S okp bad 1 (encodeVal c inp rec w ik rn)) (ik rn : Bool) :
    Goes S okp bad 1 (encodeVal c inp rec v ik rn) := by
  cases hs with
  | obj =>
    rename_i cls
    rw [encodeVal]
    exact Goes.emitting (k := 1) (((Goes.bytes c cls true).bind (h false false)).mono (fun _ h => h) (fun h => h.2) (fun _ h => h)
      (by omega)) (by decide)
  | weak =>
    rw [encodeVal]
    exact Goes.emitting (h false false) (by decide)
  | under hd =>
    unfold encodeVal
    rw [if_pos hd]
    exact h ik rn

theorem encode_level_none {c : ECfg} {inp : Heap} {S : Addr → Prop} {okp : Prop} {bad : Exn → Prop}
    {v : Val} (hv : Level v) (hb : bad (.err .maxRecursion)) (ik rn : Bool) :
    Goes S okp bad 1 (encodeVal c inp none v ik rn) := by
  cases v <;> first | exact hv.elim | exact .fail hb

/-- What a value can be. -/
theorem val_cases (c : ECfg) (h : Heap) (v : Val) :
    Plainly v ∨ (Level v ∧ ∀ a, ¬ OrdPtr h v a) ∨ (∃ a, OrdPtr h v a ∧ Level v) ∨ (∃ w, SameLevel c v w) ∨
      (∃ cls d u, v = .marshaler cls (.ok d) u ∧ c.disableFreeze = false) ∨
      (Refused c h v ∧ ∀ rec ik rn s, ∃ e, encodeVal c h rec v ik rn s = .error e ∧ Civil e) := by
  cases v <;> first | exact .inl trivial | (refine .inr (.inl ⟨trivial, ?_⟩); rintro a (h | ⟨h, -⟩) <;> (cases h; done)) | skip
  case obj => exact .inr (.inr (.inr (.inl ⟨_, .obj⟩)))
  case weak => exact .inr (.inr (.inr (.inl ⟨_, .weak⟩)))
  case thawed => exact .inr (.inr (.inr (.inr (.inr ⟨trivial, fun _ _ _ _ => ⟨_, rfl, .inr ⟨_, rfl⟩⟩⟩))))
  case ptr i a =>
    cases i
    · by_cases hp : PerlThing (h.cellAt a)
      · refine .inr (.inl ⟨trivial, ?_⟩)
        rintro b (h | ⟨h, h2⟩)
        · cases h
        · cases h; exact h2 hp
      · exact .inr (.inr (.inl ⟨a, .inr ⟨rfl, hp⟩, trivial⟩))
    · exact .inr (.inr (.inl ⟨a, .inl rfl, trivial⟩))
  case nuint => exact .inr (.inr (.inr (.inr (.inr ⟨trivial, fun _ _ _ _ => ⟨_, rfl, .inr ⟨_, rfl⟩⟩⟩))))
  case marshaler cls res u =>
    cases hd : c.disableFreeze with
    | true => exact .inr (.inr (.inr (.inl ⟨_, .under hd⟩)))
    | false =>
      cases res with
      | ok d => exact .inr (.inr (.inr (.inr (.inl ⟨_, _, _, rfl, rfl⟩))))
      | error n =>
        refine .inr (.inr (.inr (.inr (.inr ⟨hd, fun rec ik rn s => ⟨.err (.user n), ?_, .inl ⟨_, rfl⟩⟩⟩))))
        rw [encodeVal, hd]
        rfl
  case «unsupported» => exact .inr (.inr (.inr (.inr (.inr ⟨trivial, fun _ _ _ _ => ⟨_, rfl, .inr ⟨_, rfl⟩⟩⟩))))

/-- Going through an ordinary pointer. -/
theorem goes_ordptr {c : ECfg} {inp : Heap} {S : Addr → Prop} {bad : Exn → Prop} {rec : Val → Bool → Bool → E Unit}
    {v : Val} {a : Addr} (ho : OrdPtr inp v a) (hre : Refused c inp v → ∀ m, bad (.panic m))
    (h : S a ∨ Goes (fun b => b = a ∨ S b) True bad 1 (rec (inp.cellAt a) false true)) (ik rn : Bool) :
    Goes S True bad 1 (encodeVal c inp (some rec) v ik rn) := by
  rcases ho with rfl | ⟨rfl, hp⟩
  · exact goes_ptr (i := true) (rec := fun v rn => rec v false rn) (fun h => by cases h) (fun _ hs => hre hs) h
  · exact goes_ptr (i := false) (rec := fun v rn => rec v false rn) (fun _ => hp) (fun h => by cases h) h

/-- Induction along `SameLevel`. -/
theorem same_induct (c : ECfg) {P : Val → Prop} (h : ∀ v, (∀ w, SameLevel c v w → P w) → P v) (v : Val) : P v := by
  induction v with
  | obj cls r ih => exact h _ (fun w hw => by cases hw; exact ih)
  | weak r ih => exact h _ (fun w hw => by cases hw; exact ih)
  | marshaler cls res u ih => exact h _ (fun w hw => by cases hw; exact ih)
  | _ => exact h _ (fun w hw => by cases hw)

/-- With `Civil` errors allowed every value goes, with only the recursion limit allowed the values Marshal
has a form for. -/
theorem encode_goes {c : ECfg} {inp : Heap} (hord : ∀ n ks, (c.ord n ks).Perm ks) {bad : Exn → Prop}
    (hb : bad (.err .maxRecursion)) {H : Val → Prop}
    (hH : ∀ w, H w → (Refused c inp w → ∀ e, Civil e → bad e) ∧ ∀ u, Leads c inp w u → H u) (d : Nat) :
    ∀ (v : Val) (ik rn : Bool), H v → Goes (fun _ => False) True bad 1 (encode c inp (d + 1) v ik rn) := by
  have step : ∀ rec : Option (Val → Bool → Bool → E Unit),
      (∀ r, rec = some r → ∀ v ik rn, H v → Goes (fun _ => False) True bad 1 (r v ik rn)) →
      ∀ v ik rn, H v → Goes (fun _ => False) True bad 1 (encodeVal c inp rec v ik rn) := by
    intro rec hrec v
    induction v using same_induct c with
    | h v ih =>
      intro ik rn hv
      obtain ⟨h1, h2⟩ := hH v hv
      have hp : Refused c inp v → ∀ m, bad (.panic m) := fun h m => h1 h _ (.inr ⟨m, rfl⟩)
      rcases val_cases c inp v with h | ⟨h, ho⟩ | ⟨a, h, hl⟩ | ⟨w, h⟩ | ⟨cls, d, u, rfl, hf⟩ | ⟨h, h3⟩
      · exact goes_plain rec h ik rn
      · cases rec with
        | none => exact encode_level_none h hb ik rn
        | some r => exact goes_level hord h ho (fun w hw => hrec r rfl w _ _ (h2 w (.inl hw))) hp (.inl trivial) ik rn
      · cases rec with
        | none => exact encode_level_none hl hb ik rn
        | some r =>
          exact goes_ordptr h hp (.inr ((hrec r rfl _ _ _ (h2 _ (.inr (.inr ⟨a, h, rfl⟩)))).mono (fun _ h => h.elim) id
            (fun _ h => h) (Nat.le_refl _))) ik rn
      · exact goes_same h (fun ik rn => ih w h ik rn (h2 w (.inr (.inl h)))) ik rn
      · exact goes_freeze rec hf ik rn
      · intro s _ _
        obtain ⟨e, h4, h5⟩ := h3 rec ik rn s
        exact .inr ⟨e, h4, h1 h e h5⟩
  induction d with
  | zero => exact step none (by simp)
  | succ d ih => exact step (some (encode c inp (d + 1))) (by rintro r ⟨⟩; exact ih)

/-- Every value: success or an error. -/
theorem encode_civil {c : ECfg} {inp : Heap} (hord : ∀ n ks, (c.ord n ks).Perm ks) (d : Nat) (v : Val) (ik rn : Bool) :
    Goes (fun _ => False) True Civil 1 (encode c inp (d + 1) v ik rn) :=
  encode_goes hord (.inl ⟨_, rfl⟩) (H := fun _ => True) (fun _ _ => ⟨fun _ _ h => h, fun _ _ => trivial⟩) d v ik rn trivial

/-- Values Marshal has a form for: success or the recursion limit. -/
theorem encode_handled {c : ECfg} {inp : Heap} (hord : ∀ n ks, (c.ord n ks).Perm ks) (d : Nat) {v : Val}
    (hv : Handled c inp v) (ik rn : Bool) : Goes (fun _ => False) True AtLimit 1 (encode c inp (d + 1) v ik rn) := by
  obtain ⟨H, h1, h2⟩ := hv
  exact encode_goes hord (bad := AtLimit) rfl (H := H) (fun w hw => ⟨fun h => ((h2 w hw).1 h).elim, (h2 w hw).2⟩) d v ik rn h1

theorem encode_succ (c : ECfg) (inp : Heap) (d : Nat) :
    encode c inp (d + 2) = encodeVal c inp (some (encode c inp (d + 1))) := rfl

/-- Writable values: success. -/
theorem encode_writable {c : ECfg} {inp : Heap} (hord : ∀ n ks, (c.ord n ks).Perm ks) {S : Addr → Prop} {d : Nat} {v : Val}
    (hv : Writable c inp S d v) : ∀ ik rn, Goes S True (fun _ => False) 1 (encode c inp (d + 1) v ik rn) := by
  have none_or : ∀ n, ∃ rec, encode c inp (n + 1) = encodeVal c inp rec := by
    intro n
    cases n with
    | zero => exact ⟨none, rfl⟩
    | succ n => exact ⟨some (encode c inp (n + 1)), rfl⟩
  induction hv with
  | @plain S n v h =>
    intro ik rn
    obtain ⟨rec, hr⟩ := none_or n
    rw [hr]
    exact goes_plain rec h ik rn
  | level hl hre ho _ ih => exact fun ik rn => goes_level hord hl ho (fun w hw => ih w hw _ _) (fun h => (hre h).elim) (.inl trivial) ik rn
  | seen ho hre hs => exact fun ik rn => goes_ordptr ho (fun h => (hre h).elim) (.inl hs) ik rn
  | ptr ho hre _ ih => exact fun ik rn => goes_ordptr ho (fun h => (hre h).elim) (.inr (ih _ _)) ik rn
  | @same S n v w h _ ih =>
    intro ik rn
    obtain ⟨rec, hr⟩ := none_or n
    rw [hr] at ih ⊢
    exact goes_same h ih ik rn
  | @freeze S n cls d u hf =>
    intro ik rn
    obtain ⟨rec, hr⟩ := none_or n
    rw [hr]
    exact goes_freeze rec hf ik rn

/-- Stuck values: an error. -/
theorem encode_stuck {c : ECfg} {inp : Heap} (hord : ∀ n ks, (c.ord n ks).Perm ks) {d : Nat} {v : Val}
    (hv : Stuck c inp d v) : ∀ ik rn, Goes (fun _ => False) False Civil 1 (encode c inp (d + 1) v ik rn) := by
  have none_or : ∀ n, ∃ rec, encode c inp (n + 1) = encodeVal c inp rec ∧ ∀ r, rec = some r →
      ∀ v ik rn, Goes (fun _ => False) True Civil 1 (r v ik rn) := by
    intro n
    cases n with
    | zero => exact ⟨none, rfl, by simp⟩
    | succ n => exact ⟨some (encode c inp (n + 1)), rfl, by rintro r ⟨⟩; exact encode_civil hord n⟩
  have hcp : ∀ m, Civil (.panic m) := fun m => .inr ⟨m, rfl⟩
  induction hv with
  | @refused n v h =>
    intro ik rn
    obtain ⟨rec, hr, hrec⟩ := none_or n
    rw [hr]
    rcases val_cases c inp v with h1 | ⟨h1, ho⟩ | ⟨a, h1, hl⟩ | ⟨w, h1⟩ | ⟨cls, d, u, rfl, hf⟩ | ⟨h1, h3⟩
    · cases v <;> first | exact h.elim | exact h1.elim
    · cases rec with
      | none => exact encode_level_none h1 (.inl ⟨_, rfl⟩) ik rn
      | some r => exact goes_level hord h1 ho (fun w hw => hrec r rfl w _ _) (fun _ => hcp) (.inr (.inl h)) ik rn
    · cases rec with
      | none => exact encode_level_none hl (.inl ⟨_, rfl⟩) ik rn
      | some r =>
        rcases h1 with rfl | ⟨rfl, hp⟩
        · have hs : Stringy (inp.cellAt a) := h
          have : ∃ m, getPointer c inp true a = .error (.panic m) := by
            unfold getPointer
            revert hs
            cases inp.cellAt a <;> first | exact fun h => h.elim | exact fun _ => ⟨_, rfl⟩
          obtain ⟨m, hm⟩ := this
          rw [encodeVal]
          unfold encodePtr
          dsimp only
          rw [hm]
          exact .fail (hcp m)
        · exact h.elim
    · cases h1 with
      | obj => exact h.elim
      | weak => exact h.elim
      | @under cls res u hd =>
        cases res with
        | ok d => exact h.elim
        | error e => change c.disableFreeze = false at h; rw [hd] at h; cases h
    · exact h.elim
    · intro s _ _
      obtain ⟨e, h4, h5⟩ := h3 rec ik rn s
      exact .inr ⟨e, h4, h5⟩
  | deep hl => exact fun ik rn => encode_level_none hl (.inl ⟨_, rfl⟩) ik rn
  | @inner n v w hi _ ih =>
    intro ik rn
    have hl : Level v := by cases hi <;> trivial
    have ho : ∀ a, ¬ OrdPtr inp v a := by
      cases hi <;> rintro b (h | ⟨h, h2⟩) <;> first | (cases h; done) | (cases h; exact h2 (by assumption))
    exact goes_level hord hl ho (fun w _ => encode_civil hord n w _ _) (fun _ => hcp) (.inr (.inr ⟨w, hi, ih _ _⟩)) ik rn
  | @same n v w h _ ih =>
    intro ik rn
    obtain ⟨rec, hr, -⟩ := none_or n
    rw [hr] at ih ⊢
    exact goes_same h ih ik rn

/-- Without pointers a value is writable or stuck. -/
theorem writable_or_stuck {c : ECfg} {h : Heap} {v : Val} (hv : NoPointers c h v) (S : Addr → Prop) (n : Nat) :
    Writable c h S n v ∨ Stuck c h n v := by
  obtain ⟨H, h1, h2⟩ := hv
  induction n generalizing v with
  | zero =>
    induction v using same_induct c with
    | h v ih =>
      rcases val_cases c h v with hc | ⟨hc, ho⟩ | ⟨a, hc, hl⟩ | ⟨w, hc⟩ | ⟨cls, d, u, rfl, hf⟩ | ⟨hc, h3⟩
      · exact .inl (.plain hc)
      · exact .inr (.deep hc)
      · exact .inr (.deep hl)
      · exact (ih w hc ((h2 v h1).2 w (.inr (.inl hc)))).imp (.same hc) (.same hc)
      · exact .inl (.freeze hf)
      · exact .inr (.refused hc)
  | succ n ihn =>
    induction v using same_induct c with
    | h v ih =>
      rcases val_cases c h v with hc | ⟨hc, ho⟩ | ⟨a, hc, hl⟩ | ⟨w, hc⟩ | ⟨cls, d, u, rfl, hf⟩ | ⟨hc, h3⟩
      · exact .inl (.plain hc)
      · by_cases hre : Refused c h v
        · exact .inr (.refused hre)
        · by_cases hall : ∀ w, Inner h v w → Writable c h S n w
          · exact .inl (.level hc hre ho hall)
          · obtain ⟨w, hw⟩ := Classical.not_forall.1 hall
            obtain ⟨hi, hw⟩ := Classical.not_imp.1 hw
            exact .inr (.inner hi ((ihn ((h2 v h1).2 w (.inl hi))).resolve_left hw))
      · exact ((h2 v h1).1 a hc).elim
      · exact (ih w hc ((h2 v h1).2 w (.inr (.inl hc)))).imp (.same hc) (.same hc)
      · exact .inl (.freeze hf)
      · exact .inr (.refused hc)

end Sereal
