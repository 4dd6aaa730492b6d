import Verif.Proof.EmitMain
import Verif.Proof.Marshal
import Verif.Props.C06
/-
C30: Shared Go pointers become shared references.
-/
namespace Sereal

/-! ### The pointer table never forgets -/

/-- Addresses recorded in the pointer table stay recorded. -/
def KeepsPtrs (x : E α) : Prop :=
  ∀ s s' a, x s = .ok (a, s') → ∀ κ, s.ptrTable κ ≠ none → s'.ptrTable κ ≠ none

namespace KeepsPtrs

theorem bind {x : E α} {f : α → E β} (hx : KeepsPtrs x) (hf : ∀ a, KeepsPtrs (f a)) : KeepsPtrs (x >>= f) := by
  intro s s' b h κ hk
  obtain ⟨a, s1, h1, h2⟩ := E.bind_ok.1 h
  exact hf a s1 s' b h2 κ (hx s s1 a h1 κ hk)

theorem pure (a : α) : KeepsPtrs (Pure.pure a : E α) := by
  intro s s' b h κ hk
  obtain ⟨_, rfl⟩ := E.pure_ok.1 h
  exact hk

theorem fail (e : Exn) : KeepsPtrs (E.fail e : E α) := by
  intro s s' b h; cases h

theorem get : KeepsPtrs E.get := by
  intro s s' b h κ hk; cases h; exact hk

theorem emit (w : Bytes) : KeepsPtrs (Sereal.emit w) := by
  intro s s' b h κ hk; cases h; exact hk

theorem rememberStr (k : Bytes) : KeepsPtrs (Sereal.rememberStr k) := by
  intro s s' b h κ hk; cases h; exact hk

theorem rememberPtr (a : Addr) (o : Nat) : KeepsPtrs (Sereal.rememberPtr a o) := by
  intro s s' b h κ hk
  rw [rememberPtr_ok h]
  dsimp only
  split
  · simp
  · exact hk

theorem setTrackFlag (o : Nat) : KeepsPtrs (Sereal.setTrackFlag o) := by
  intro s s' b h κ hk
  unfold Sereal.setTrackFlag at h
  split at h
  · cases h; exact hk
  · cases h

theorem rangeKeys (cfg : ECfg) (ks : List Bytes) : KeepsPtrs (Sereal.rangeKeys cfg ks) := by
  intro s s' b h κ hk; cases h; exact hk

theorem ite {c : Prop} [Decidable c] {x y : E α} (hx : KeepsPtrs x) (hy : KeepsPtrs y) :
    KeepsPtrs (if c then x else y) := by
  split
  · exact hx
  · exact hy

theorem encodeString (cfg : ECfg) (s : Bytes) (ik : Bool) : KeepsPtrs (Sereal.encodeString cfg s ik) := by
  unfold Sereal.encodeString
  refine ite (bind get fun st => ?_) (emit _)
  split
  · exact emit _
  · exact bind (rememberStr _) fun _ => emit _

theorem encodeBytes (cfg : ECfg) (s : Bytes) (ik : Bool) : KeepsPtrs (Sereal.encodeBytes cfg s ik) := by
  unfold Sereal.encodeBytes
  refine ite (bind get fun st => ?_) (emit _)
  split
  · exact emit _
  · exact bind (rememberStr _) fun _ => emit _

theorem jsonNumber (cfg : ECfg) (s : Bytes) (ik : Bool) : KeepsPtrs (encodeJsonNumber cfg s ik) := by
  unfold encodeJsonNumber
  split
  · exact emit _
  · exact encodeString _ _ _
  · split
    · exact emit _
    · exact encodeString _ _ _

theorem elems {rec : Val → E Unit} (h : ∀ v, KeepsPtrs (rec v)) : ∀ vs, KeepsPtrs (encodeElems rec vs)
  | [] => pure _
  | v :: vs => bind (h v) fun _ => elems h vs

theorem pairs {key : Bytes → E Unit} {rec : Val → E Unit} (hk : ∀ k, KeepsPtrs (key k)) (h : ∀ v, KeepsPtrs (rec v))
    (kvs : List (Bytes × Val)) : ∀ ks, KeepsPtrs (encodePairs key rec kvs ks)
  | [] => pure _
  | k :: ks => bind (hk k) fun _ => bind (h _) fun _ => pairs hk h kvs ks

theorem fields {cfg : ECfg} {rec : Val → E Unit} (h : ∀ v, KeepsPtrs (rec v)) (tags : List (Bytes × Field))
    (ks : List Bytes) : KeepsPtrs (encodeFields cfg rec tags ks) := by
  induction ks with
  | nil => exact pure _
  | cons k ks ih =>
    unfold encodeFields
    refine bind (encodeString _ _ _) fun _ => ?_
    cases mapLookup k tags with
    | none => exact ih
    | some f =>
      dsimp only
      split
      · exact bind (fail _) fun _ => ih
      · exact bind (h _) fun _ => ih

theorem arr {cfg : ECfg} {rec : Val → E Unit} (h : ∀ v, KeepsPtrs (rec v)) (vs : List Val) (rn : Bool) :
    KeepsPtrs (encodeArr cfg rec vs rn) := by
  have hr : KeepsPtrs (Sereal.emit (typeARRAY :: varint vs.length) >>= fun _ => encodeElems rec vs) :=
    bind (emit _) fun _ => elems h vs
  exact ite (bind (emit _) fun _ => hr) hr

theorem mp {cfg : ECfg} {rec : Val → E Unit} (h : ∀ v, KeepsPtrs (rec v)) (kvs : List (Bytes × Val)) (rn vs : Bool) :
    KeepsPtrs (encodeMp cfg rec kvs rn vs) := by
  have hr : KeepsPtrs (Sereal.emit (typeHASH :: varint kvs.length) >>= fun _ =>
      Sereal.rangeKeys cfg (kvs.map (·.1)) >>= fun ks =>
      encodePairs (fun k => Sereal.encodeString cfg k vs) rec kvs ks) :=
    bind (emit _) fun _ => bind (rangeKeys _ _) fun _ => pairs (fun _ => encodeString _ _ _) h kvs _
  exact ite (bind (emit _) fun _ => hr) hr

theorem strct {cfg : ECfg} {rec : Val → E Unit} (h : ∀ v, KeepsPtrs (rec v)) (name : Bytes) (fs : List Field) :
    KeepsPtrs (encodeStrct cfg rec name fs) := by
  have hr : KeepsPtrs (Sereal.emit (typeHASH :: varint (structTags fs []).length) >>= fun _ =>
      Sereal.rangeKeys cfg ((structTags fs []).map (·.1)) >>= fun ks =>
      encodeFields cfg rec (structTags fs []) ks) :=
    bind (emit _) fun _ => bind (rangeKeys _ _) fun _ => fields h _ _
  exact bind (emit _) fun _ => bind (encodeBytes _ _ _) fun _ => ite (bind (emit _) fun _ => hr) hr

theorem ptr {cfg : ECfg} {inp : Heap} {rec : Val → Bool → E Unit} (h : ∀ v rn, KeepsPtrs (rec v rn)) (iface : Bool)
    (a : Addr) : KeepsPtrs (encodePtr cfg inp rec iface a) := by
  unfold encodePtr
  refine ite (h _ _) ?_
  split
  · exact fail _
  · refine bind get fun st => ?_
    split
    · exact bind (emit _) fun _ => setTrackFlag _
    · exact bind (emit _) fun _ => bind (rememberPtr _ _) fun _ => bind (h _ _) fun _ =>
        ite (rememberPtr _ _) (pure _)

theorem encodeVal {cfg : ECfg} {inp : Heap} {rec : Option (Val → Bool → Bool → E Unit)}
    (h : ∀ r, rec = some r → ∀ v ik rn, KeepsPtrs (r v ik rn)) :
    ∀ v ik rn, KeepsPtrs (Sereal.encodeVal cfg inp rec v ik rn) := by
  intro v
  induction v with
  | slice p n | rslice p n =>
    intro ik rn
    cases rec with
    | none => exact fail _
    | some r => exact arr (fun v => h r rfl v _ _) _ _
  | smap m | rmap m =>
    intro ik rn
    cases rec with
    | none => exact fail _
    | some r => exact mp (fun v => h r rfl v _ _) _ _ _
  | obj cls ref ih =>
    intro ik rn
    unfold Sereal.encodeVal
    exact bind (emit _) fun _ => bind (encodeBytes _ _ _) fun _ => ih _ _
  | weak ref ih =>
    intro ik rn
    unfold Sereal.encodeVal
    exact bind (emit _) fun _ => ih _ _
  | frozen cls data =>
    intro ik rn
    cases rec with
    | none => exact fail _
    | some r => exact strct (fun v => h r rfl v _ _) _ _
  | ptr iface a =>
    intro ik rn
    cases rec with
    | none => exact fail _
    | some r => exact ptr (fun v rn => h r rfl v _ rn) _ _
  | nilptr =>
    intro ik rn
    cases rec with
    | none => exact fail _
    | some r => exact emit _
  | strct name a =>
    intro ik rn
    cases rec with
    | none => exact fail _
    | some r => exact strct (fun v => h r rfl v _ _) _ _
  | marshaler cls res under ih =>
    intro ik rn
    unfold Sereal.encodeVal
    refine ite (ih _ _) ?_
    split
    · exact fail _
    · exact bind (emit _) fun _ => bind (encodeString _ _ _) fun _ => bind (emit _) fun _ => bind (emit _) fun _ =>
        encodeBytes _ _ _
  | regexp p m =>
    intro ik rn
    exact bind (emit _) fun _ => bind (encodeBytes _ _ _) fun _ => encodeBytes _ _ _
  | jnum s => intro ik rn; exact jsonNumber _ _ _
  | str s => intro ik rn; exact encodeString _ _ _
  | nstr s => intro ik rn; exact encodeString _ _ _
  | bin s => intro ik rn; exact encodeBytes _ _ _
  | thawed _ _ => intro ik rn; exact fail _
  | nuint _ _ => intro ik rn; exact fail _
  | unsupported => intro ik rn; exact fail _
  | _ => intro ik rn; exact emit _

theorem encode {cfg : ECfg} {inp : Heap} : ∀ d v ik rn, KeepsPtrs (Sereal.encode cfg inp d v ik rn)
  | 0 => encodeVal (fun _ h => by cases h)
  | 1 => encodeVal (fun _ h => by cases h)
  | d + 2 => encodeVal (fun r h => by cases h; exact encode (d + 1))

end KeepsPtrs

/-! ### Pointers inside a value are recorded when it has been encoded -/

/-- The value contains a pointer to the variable at `a` that the encoder treats as a pointer (not as the
Perl value it points to), and not only behind another such pointer. -/
inductive HasPtr (c : ECfg) (inp : Heap) (a : Addr) : Val → Prop
  | ptr {b} : (b = false → isPerlStruct (inp.cellAt a) = false) → HasPtr c inp a (.ptr b a)
  | slice {p n i} : i < n → HasPtr c inp a (inp.cellAt (p + i)) → HasPtr c inp a (.slice p n)
  | rslice {p n i} : i < n → HasPtr c inp a (inp.cellAt (p + i)) → HasPtr c inp a (.rslice p n)
  | smap {m k v} : mapLookup k (inp.mapAt m) = some v → HasPtr c inp a v → HasPtr c inp a (.smap m)
  | rmap {m k v} : mapLookup k (inp.mapAt m) = some v → HasPtr c inp a v → HasPtr c inp a (.rmap m)
  | strct {name x k v} : lastLookup k (fieldEntries (inp.fieldsAt x)) = some v → HasPtr c inp a v →
      HasPtr c inp a (.strct name x)
  | obj {cls v} : HasPtr c inp a v → HasPtr c inp a (.obj cls v)
  | weak {v} : HasPtr c inp a v → HasPtr c inp a (.weak v)
  | perl {x} : isPerlStruct (inp.cellAt x) = true → HasPtr c inp a (inp.cellAt x) → HasPtr c inp a (.ptr false x)
  | marshaler {cls res v} : c.disableFreeze = true → HasPtr c inp a v → HasPtr c inp a (.marshaler cls res v)

/-- The encoder recognises pointers to `a`. -/
def Known (c : ECfg) (inp : Heap) (s : EState) (a : Addr) : Prop :=
  ∃ κ, IsKey c inp a κ ∧ s.ptrTable κ ≠ none

theorem Known.keep {c : ECfg} {inp : Heap} {s s' : EState} {a : Addr} (h : Known c inp s a) {x : E α} {r : α}
    (hx : KeepsPtrs x) (he : x s = .ok (r, s')) : Known c inp s' a := by
  obtain ⟨κ, h1, h2⟩ := h
  exact ⟨κ, h1, hx s s' r he κ h2⟩

/-- After the run, pointers to `a` are recognised. -/
def Learns (c : ECfg) (inp : Heap) (a : Addr) (x : E Unit) : Prop :=
  ∀ s s', x s = .ok ((), s') → Known c inp s' a

namespace Learns
variable {c : ECfg} {inp : Heap} {a : Addr}

theorem after {x : E α} {f : α → E Unit} (h : ∀ r, Learns c inp a (f r)) : Learns c inp a (x >>= f) := by
  intro s s' he
  obtain ⟨r, s1, _, h2⟩ := E.bind_ok.1 he
  exact h r s1 s' h2

theorem before {x : E Unit} {f : Unit → E Unit} (h : Learns c inp a x) (hk : ∀ r, KeepsPtrs (f r)) :
    Learns c inp a (x >>= f) := by
  intro s s' he
  obtain ⟨r, s1, h1, h2⟩ := E.bind_ok.1 he
  exact (h s s1 h1).keep (hk r) h2

theorem ite {p : Prop} [Decidable p] {x y : E Unit} (hx : Learns c inp a x) (hy : Learns c inp a y) :
    Learns c inp a (if p then x else y) := by
  split
  · exact hx
  · exact hy

theorem fail {e : Exn} : Learns c inp a (E.fail e) := by
  intro s s' h; cases h

theorem elems {rec : Val → E Unit} (hk : ∀ v, KeepsPtrs (rec v)) :
    ∀ {vs : List Val} {v : Val}, v ∈ vs → Learns c inp a (rec v) → Learns c inp a (encodeElems rec vs)
  | w :: vs, v, hm, h => by
    rcases List.mem_cons.1 hm with rfl | hm
    · exact before h fun _ => KeepsPtrs.elems hk vs
    · exact after fun _ => elems hk hm h

theorem pairs {key : Bytes → E Unit} {rec : Val → E Unit} (hkk : ∀ k, KeepsPtrs (key k))
    (hk : ∀ v, KeepsPtrs (rec v)) (kvs : List (Bytes × Val)) {v : Val} (h : Learns c inp a (rec v)) {k : Bytes}
    (hl : mapLookup k kvs = some v) : ∀ {ks : List Bytes}, k ∈ ks → Learns c inp a (encodePairs key rec kvs ks)
  | k' :: ks, hm => by
    unfold encodePairs
    refine after fun _ => ?_
    rcases List.mem_cons.1 hm with rfl | hm
    · rw [hl]
      exact before h fun _ => KeepsPtrs.pairs hkk hk kvs ks
    · exact after fun _ => pairs hkk hk kvs h hl hm

theorem fields {rec : Val → E Unit} (hk : ∀ v, KeepsPtrs (rec v)) (tags : List (Bytes × Field)) {f : Field}
    (h : Learns c inp a (rec f.val)) {k : Bytes} (hl : mapLookup k tags = some f) {ks : List Bytes} (hm : k ∈ ks) :
    Learns c inp a (encodeFields c rec tags ks) := by
  induction ks with
  | nil => cases hm
  | cons k' ks ih =>
    unfold encodeFields
    refine after fun _ => ?_
    rcases List.mem_cons.1 hm with rfl | hm
    · rw [hl]
      dsimp only
      split
      · exact before fail fun _ => KeepsPtrs.fields hk tags ks
      · exact before h fun _ => KeepsPtrs.fields hk tags ks
    · have ih := ih hm
      cases mapLookup k' tags with
      | none => exact ih
      | some f' =>
        dsimp only
        split
        · exact after fun _ => ih
        · exact after fun _ => ih

theorem arr {rec : Val → E Unit} (hk : ∀ v, KeepsPtrs (rec v)) {vs : List Val} {v : Val} (hm : v ∈ vs)
    (h : Learns c inp a (rec v)) (rn : Bool) : Learns c inp a (encodeArr c rec vs rn) := by
  have hr : Learns c inp a (Sereal.emit (typeARRAY :: varint vs.length) >>= fun _ => encodeElems rec vs) :=
    after fun _ => elems hk hm h
  exact ite (after fun _ => hr) hr

theorem rangeKeys {k : Bytes} {ks : List Bytes} (hord : ∀ n ks, (c.ord n ks).Perm ks) (hk : k ∈ ks)
    {f : List Bytes → E Unit} (h : ∀ ks', k ∈ ks' → Learns c inp a (f ks')) :
    Learns c inp a (Sereal.rangeKeys c ks >>= f) := by
  intro s s' he
  obtain ⟨r, s1, h1, h2⟩ := E.bind_ok.1 he
  cases h1
  exact h _ ((hord _ _).mem_iff.2 hk) _ _ h2

theorem key_mem {α : Type} {k : Bytes} {v : α} {kvs : List (Bytes × α)} (h : mapLookup k kvs = some v) :
    k ∈ kvs.map (·.1) := by
  have := mapLookup_isSome k kvs
  rw [h] at this
  simpa using this

theorem mp (hord : ∀ n ks, (c.ord n ks).Perm ks) {rec : Val → E Unit} (hk : ∀ v, KeepsPtrs (rec v))
    {kvs : List (Bytes × Val)} {k : Bytes} {v : Val} (hl : mapLookup k kvs = some v)
    (h : Learns c inp a (rec v)) (rn vs : Bool) : Learns c inp a (encodeMp c rec kvs rn vs) := by
  have hr : Learns c inp a (Sereal.emit (typeHASH :: varint kvs.length) >>= fun _ =>
      Sereal.rangeKeys c (kvs.map (·.1)) >>= fun ks =>
      encodePairs (fun k => Sereal.encodeString c k vs) rec kvs ks) :=
    after fun _ => rangeKeys hord (key_mem hl) fun ks' hm =>
      pairs (fun _ => KeepsPtrs.encodeString _ _ _) hk kvs h hl hm
  exact ite (after fun _ => hr) hr

theorem strct (hord : ∀ n ks, (c.ord n ks).Perm ks) {rec : Val → E Unit} (hk : ∀ v, KeepsPtrs (rec v))
    {fs : List Field} {k : Bytes} {v : Val} (hl : lastLookup k (fieldEntries fs) = some v)
    (h : Learns c inp a (rec v)) (name : Bytes) : Learns c inp a (encodeStrct c rec name fs) := by
  have hl' := structTags_lookup fs k
  rw [hl] at hl'
  obtain ⟨f, hf, rfl⟩ : ∃ f, mapLookup k (structTags fs []) = some f ∧ f.val = v := by
    cases hx : mapLookup k (structTags fs []) with
    | none => rw [hx] at hl'; cases hl'
    | some f => rw [hx] at hl'; exact ⟨f, rfl, by simpa using hl'⟩
  have hr : Learns c inp a (Sereal.emit (typeHASH :: varint (structTags fs []).length) >>= fun _ =>
      Sereal.rangeKeys c ((structTags fs []).map (·.1)) >>= fun ks =>
      encodeFields c rec (structTags fs []) ks) :=
    after fun _ => rangeKeys hord (key_mem hf) fun ks' hm => fields hk _ h hf hm
  exact after fun _ => after fun _ => ite (after fun _ => hr) hr

theorem ptr {rec : Val → Bool → E Unit} (hk : ∀ v rn, KeepsPtrs (rec v rn)) {iface : Bool}
    (hp : iface = false → isPerlStruct (inp.cellAt a) = false) : Learns c inp a (encodePtr c inp rec iface a) := by
  intro s s' he
  unfold encodePtr at he
  dsimp only at he
  rw [if_neg (by cases iface <;> simp_all)] at he
  cases hgp : getPointer c inp iface a with
  | error e => rw [hgp] at he; cases he
  | ok p =>
    rw [hgp] at he
    dsimp only at he
    have hpd := getPointer_ok hgp
    obtain ⟨st, s0, h0, he2⟩ := E.bind_ok.1 he
    clear he
    obtain ⟨rfl, rfl⟩ := E.get_ok.1 h0
    cases hfo : findPtr s0 a p with
    | some o =>
      have hkn : Known c inp s0 a := by
        unfold findPtr at hfo
        cases h1 : s0.ptrTable a with
        | some o' => exact ⟨a, .inl rfl, by rw [h1]; simp⟩
        | none =>
          rw [h1] at hfo
          dsimp only at hfo
          split at hfo
          · rename_i hne
            exact ⟨p, .inr ⟨hpd, hne⟩, by rw [hfo]; simp⟩
          · cases hfo
      rw [hfo] at he2
      exact hkn.keep (KeepsPtrs.bind (KeepsPtrs.emit _) fun _ => KeepsPtrs.setTrackFlag _) he2
    | none =>
      rw [hfo] at he2
      obtain ⟨_, s1, h1, he⟩ := E.bind_ok.1 he2
      obtain ⟨_, s2, h2, he⟩ := E.bind_ok.1 he
      have hkn : Known c inp s2 a := ⟨a, .inl rfl, by rw [rememberPtr_ok h2]; simp⟩
      exact hkn.keep (KeepsPtrs.bind (hk _ _) fun _ =>
        KeepsPtrs.ite (KeepsPtrs.rememberPtr _ _) (KeepsPtrs.pure _)) he

theorem encode (hord : ∀ n ks, (c.ord n ks).Perm ks) {v : Val} (h : HasPtr c inp a v) :
    ∀ d ik rn, Learns c inp a (Sereal.encode c inp d v ik rn) := by
  have hK := @KeepsPtrs.encode c inp
  have leaf0 : ∀ {w : Val}, (∀ (ik rn : Bool), Learns c inp a (Sereal.encodeVal c inp none w ik rn)) →
      (∀ d (ik rn : Bool), Learns c inp a (Sereal.encodeVal c inp (some (Sereal.encode c inp (d + 1))) w ik rn)) →
      ∀ d ik rn, Learns c inp a (Sereal.encode c inp d w ik rn) := by
    intro w h0 h1 d ik rn
    match d with
    | 0 => exact h0 _ _
    | 1 => exact h0 _ _
    | d + 2 => exact h1 d _ _
  induction h with
  | ptr hp => exact leaf0 (fun _ _ => fail) fun d _ _ => ptr (fun v rn => hK _ v _ rn) hp
  | @slice p n i hi _ ih =>
    exact leaf0 (fun _ _ => fail) fun d _ _ => arr (fun v => hK _ v _ _)
      (List.mem_of_getElem? (sliceVals_get hi)) (ih _ _ _) _
  | @rslice p n i hi _ ih =>
    exact leaf0 (fun _ _ => fail) fun d _ _ => arr (fun v => hK _ v _ _)
      (List.mem_of_getElem? (sliceVals_get hi)) (ih _ _ _) _
  | smap hl _ ih => exact leaf0 (fun _ _ => fail) fun d _ _ => mp hord (fun v => hK _ v _ _) hl (ih _ _ _) _ _
  | rmap hl _ ih => exact leaf0 (fun _ _ => fail) fun d _ _ => mp hord (fun v => hK _ v _ _) hl (ih _ _ _) _ _
  | strct hl _ ih => exact leaf0 (fun _ _ => fail) fun d _ _ => strct hord (fun v => hK _ v _ _) hl (ih _ _ _) _
  | obj _ ih =>
    refine leaf0 (fun _ _ => after fun _ => after fun _ => ih 0 _ _) fun d _ _ => after fun _ => after fun _ => ih (d + 2) _ _
  | weak _ ih =>
    refine leaf0 (fun _ _ => after fun _ => ih 0 _ _) fun d _ _ => after fun _ => ih (d + 2) _ _
  | @perl x hp _ ih =>
    refine leaf0 (fun _ _ => fail) fun d ik rn => ?_
    show Learns c inp a (encodePtr c inp (fun v rn => Sereal.encode c inp (d + 1) v false rn) false x)
    unfold encodePtr
    dsimp only
    rw [if_pos (by simp [hp])]
    exact ih _ _ _
  | marshaler hd _ ih =>
    refine leaf0 (fun ik rn => ?_) fun d ik rn => ?_
    · unfold encodeVal; rw [if_pos hd]; exact ih 0 _ _
    · unfold encodeVal; rw [if_pos hd]; exact ih (d + 2) _ _

end Learns

/-! ### What a later occurrence is written as -/

variable {c : ECfg} {inp : Heap} {base : Nat}

/-- `t` refers to an item written before for a pointer recognised as the pointer to `a`: either the REFN
item of a pointer, or the item such a pointer leads to. -/
inductive Later (c : ECfg) (inp : Heap) (a : Addr) : Tree → Prop
  | again {κ t} : IsKey c inp a κ → Written c inp true (inp.cellAt κ) t → Later c inp a (.refp (.ref t))
  | share {a' t} : dataAddr c inp a' ≠ 0 → IsKey c inp a (dataAddr c inp a') →
      Written c inp true (inp.cellAt a') t → Later c inp a (.refp t)

/-- Every entry of the pointer table belongs to a completed item. -/
def Closed (c : ECfg) (inp : Heap) (s : EState) (g : Gh) : Prop :=
  ∀ κ o, s.ptrTable κ = some o → ∃ t, g.seen o = some (some t) ∧ PtrTree c inp κ t

theorem Closed.step {s s' : EState} {g g' : Gh} {P : Bytes → Seen → Seen → Prop} (h : Closed c inp s g)
    (hi : EInv c inp base s g) (hst : Step c inp base (fun _ _ => False) s s' g g' P) : Closed c inp s' g' := by
  intro κ o ho
  rcases hst.new κ o ho with h1 | h1 | h1
  · obtain ⟨t, h2, h3⟩ := h κ o h1
    refine ⟨t, ?_, h3⟩
    rw [hst.grows.seen o (hi.range o (by rw [h2]; simp)).2]
    exact h2
  · exact h1.elim
  · exact h1

theorem againItem {rec : Val → Bool → E Unit} {iface : Bool} {a : Addr} {s s' : EState} {g : Gh}
    (hi : EInv c inp base s g) (hcl : Closed c inp s g) (hp : iface = false → isPerlStruct (inp.cellAt a) = false)
    (hkn : Known c inp s a) (he : encodePtr c inp rec iface a s = .ok ((), s')) :
    ∃ g' t, Later c inp a t ∧ Step c inp base (fun _ _ => False) s s' g g'
        (fun B T T' => Fits maxSize t →
          G wrtDialect B false .item g.raw.length T (.tree t) g'.raw.length T') ∧
      g'.seen g.raw.length = some (some t) ∧ Fits g'.raw.length t := by
  unfold encodePtr at he
  dsimp only at he
  rw [if_neg (by cases iface <;> simp_all)] at he
  cases hgp : getPointer c inp iface a with
  | error e => rw [hgp] at he; cases he
  | ok p =>
    rw [hgp] at he
    dsimp only at he
    have hpd := getPointer_ok hgp
    obtain ⟨st, s0, h0, he2⟩ := E.bind_ok.1 he
    clear he
    obtain ⟨rfl, rfl⟩ := E.get_ok.1 h0
    have key : ∃ κ o, findPtr s0 a p = some o ∧ IsKey c inp a κ ∧ s0.ptrTable κ = some o := by
      unfold findPtr
      cases h1 : s0.ptrTable a with
      | some o => exact ⟨a, o, rfl, .inl rfl, h1⟩
      | none =>
        obtain ⟨κ, rfl | ⟨h2, h3⟩, h4⟩ := hkn
        · exact absurd h1 h4
        · cases h5 : s0.ptrTable κ with
          | none => exact absurd h5 h4
          | some o =>
            refine ⟨κ, o, ?_, .inr ⟨h2, h3⟩, h5⟩
            dsimp only
            rw [hpd, ← h2, if_pos h3, h5]
    obtain ⟨κ, o, h1, h2, h3⟩ := key
    rw [h1] at he2
    refine refpItem hi he2 (.inr ?_)
    obtain ⟨t, h4, ⟨t0, rfl, h5⟩ | ⟨a', h5, h6, h7⟩⟩ := hcl κ o h3
    · exact ⟨_, h4, .again h2 h5⟩
    · exact ⟨_, h4, .share (by rw [h5]; exact h6) (by rw [h5]; exact h2) h7⟩

/-- Elements one after the other, the pointers in `done` having been encoded already. -/
theorem elemsAgain (hord : ∀ n ks, (c.ord n ks).Perm ks) (d : Nat) :
    ∀ (vs done : List Val) (s s' : EState) (g : Gh), EInv c inp base s g → Closed c inp s g →
      (∀ v ∈ done, ∀ a, HasPtr c inp a v → Known c inp s a) →
      encodeElems (fun v => encode c inp (d + 1) v false false) vs s = .ok ((), s') →
    ∃ g' ts, ts.length = vs.length ∧
      (∀ (i : Nat) t v, ts[i]? = some t → vs[i]? = some v → Written c inp false v t) ∧
      (∀ (j : Nat) t b a, ts[j]? = some t → vs[j]? = some (.ptr b a) →
        (b = false → isPerlStruct (inp.cellAt a) = false) →
        (∃ v ∈ done ++ vs.take j, HasPtr c inp a v) → Later c inp a t) ∧
      Step c inp base (fun _ _ => False) s s' g g' (fun B T T' => (∀ t ∈ ts, Fits maxSize t) →
        G wrtDialect B false (.items vs.length) g.raw.length T (.trees ts) g'.raw.length T') ∧
      (∀ t ∈ ts, Fits g'.raw.length t) ∧ g.raw.length + ts.length ≤ g'.raw.length
  | [], done, s, s', g, hi, _, _, he => by
    obtain ⟨_, rfl⟩ := E.pure_ok.1 he
    exact ⟨g, [], rfl, by simp, by simp, (Step.refl hi).mono (by rintro B T T' rfl _; exact .itemsNil), by simp, by simp⟩
  | v :: vs, done, s, s', g, hi, hcl, hdone, he => by
    obtain ⟨_, s1, h1, h2⟩ := E.bind_ok.1 he
    have hfirst : ∃ g1 t, (Written c inp false v t ∧ (∀ b a, v = .ptr b a →
          (b = false → isPerlStruct (inp.cellAt a) = false) → (∃ v ∈ done, HasPtr c inp a v) → Later c inp a t)) ∧
        Step c inp base (fun _ _ => False) s s1 g g1
          (fun B T T' => Fits maxSize t →
            G wrtDialect B false .item g.raw.length T (.tree t) g1.raw.length T') ∧
        g1.seen g.raw.length = some (some t) ∧ Fits g1.raw.length t := by
      by_cases hv : ∃ b a, v = .ptr b a ∧ (b = false → isPerlStruct (inp.cellAt a) = false) ∧
          ∃ v ∈ done, HasPtr c inp a v
      · obtain ⟨b, a, rfl, hp, w, hw, hh⟩ := hv
        cases d with
        | zero => cases h1
        | succ d =>
          obtain ⟨g1, t, hL, hrest⟩ := againItem (iface := b) (a := a)
            (rec := fun v rn => encode c inp (d + 1) v false rn) hi hcl hp (hdone w hw a hh) h1
          refine ⟨g1, t, ⟨?_, ?_⟩, hrest⟩
          · cases hL with
            | again h3 h4 => exact .ptrAgain hp h3 h4
            | share h3 h4 h5 => exact .ptrShare hp h3 h4 h5
          · intro b' a' he' _ _
            cases he'
            exact hL
      · obtain ⟨g1, t, hW, hrest⟩ := encode_item hord (d + 1) v false s s1 g hi h1
        exact ⟨g1, t, ⟨hW, fun b a h3 h4 h5 => absurd ⟨b, a, h3, h4, h5⟩ hv⟩, hrest⟩
    obtain ⟨g1, t, ⟨hW, hL⟩, hst, hs, hf⟩ := hfirst
    have hdone' : ∀ w ∈ done ++ [v], ∀ a, HasPtr c inp a w → Known c inp s1 a := by
      intro w hw a hh
      rcases List.mem_append.1 hw with hw | hw
      · exact (hdone w hw a hh).keep (KeepsPtrs.encode _ _ _ _) h1
      · rw [List.mem_singleton] at hw
        subst hw
        exact Learns.encode hord hh _ _ _ _ _ h1
    obtain ⟨g2, ts, hl, hWs, hLs, hst2, hfs, hlen⟩ :=
      elemsAgain hord d vs (done ++ [v]) s1 s' g1 hst.inv (hcl.step hi hst) hdone' h2
    refine ⟨g2, t :: ts, by simp [hl], ?_, ?_, (hst.comp hst2).mono ?_, ?_, ?_⟩
    · intro i t' v' ht' hv'
      cases i with
      | zero => cases ht'; cases hv'; exact hW
      | succ i => exact hWs i t' v' (by simpa using ht') (by simpa using hv')
    · intro j t' b a ht' hv' hp hex
      cases j with
      | zero =>
        cases ht'
        exact hL b a (by simpa using hv') hp (by simpa using hex)
      | succ j => exact hLs j t' b a (by simpa using ht') (by simpa using hv') hp (by simpa using hex)
    · rintro B T T' ⟨T1, h3, h4⟩ hfit
      exact .itemsCons (h3 (hfit t (by simp))) (h4 (fun t' ht' => hfit t' (by simp [ht'])))
    · intro t' ht'
      rcases List.mem_cons.1 ht' with rfl | ht'
      · exact hf.mono hst2.grows.le
      · exact hfs t' ht'
    · have := hst.lt hs
      simp only [List.length_cons]
      omega

/-- Like `EncItem`, starting with an empty pointer table. -/
def EncFirst (c : ECfg) (inp : Heap) (base : Nat) (x : E Unit) (R : Tree → Prop) : Prop :=
  ∀ s s' g, EInv c inp base s g → s.ptrTable = (fun _ => none) → x s = .ok ((), s') →
    ∃ g' t, R t ∧ Step c inp base (fun _ _ => False) s s' g g'
        (fun B T T' => Fits maxSize t →
          G wrtDialect B false .item g.raw.length T (.tree t) g'.raw.length T') ∧
      g'.seen g.raw.length = some (some t) ∧ Fits g'.raw.length t

theorem tagFirst {tag : UInt8} {w : Bytes} (ht : PlainTag tag) {x : E Unit} {s s' : EState} {g : Gh}
    (hi : EInv c inp base s g) (hs : s.ptrTable = (fun _ => none))
    (he : (emit (tag :: w) >>= fun _ => x) s = .ok ((), s'))
    {Q : Gh → Tree → Bytes → Seen → Seen → Prop} {R : Tree → Prop}
    (h : ∀ s1, EInv c inp base s1 (g.start (tag :: w)) → s1.ptrTable = (fun _ => none) → x s1 = .ok ((), s') →
      ∃ g2 t, R t ∧ Step c inp base (fun _ _ => False) s1 s' (g.start (tag :: w)) g2 (Q g2 t) ∧
        Fits g2.raw.length t ∧
        ∀ B T T', Q g2 t B T T' → g2.raw.length < 2 ^ 63 → Fits maxSize t →
          Span B (g.raw.length + 1) w (g.start (tag :: w)).raw.length →
          G wrtDialect B false (.body (classify tag.toNat)) (g.raw.length + 1) T (.tree t) g2.raw.length T') :
    ∃ g' t, R t ∧ Step c inp base (fun _ _ => False) s s' g g'
        (fun B T T' => Fits maxSize t →
          G wrtDialect B false .item g.raw.length T (.tree t) g'.raw.length T') ∧
      g'.seen g.raw.length = some (some t) ∧ Fits g'.raw.length t := by
  obtain ⟨_, s1, h1, h2⟩ := E.bind_ok.1 he
  have h1 := emit_ok.1 h1
  have hst1 := step_start (X := fun _ _ => False) hi ht.1 (s1 := s1) (w := w) (by rw [h1]) (by rw [h1])
    (fun κ o ho => .inl (by rw [h1] at ho; exact ho)) (fun _ _ hf => hf.elim)
  obtain ⟨g2, t, hR, hst2, hf2, hb⟩ := h s1 hst1.inv (by rw [h1]; exact hs) h2
  obtain ⟨h3, h4⟩ := mk_item (X := fun _ _ => False) (F := Fits maxSize t) (t := t) (s1 := s1) (g2 := g2)
    hi ht (w := w) (by rw [h1]) (by rw [h1]) (fun κ o ho => .inl (by rw [h1] at ho; exact ho))
    (fun _ _ hf => hf.elim) (fun _ => hst2) hb
  exact ⟨_, t, hR, h3, h4, hf2⟩

/-- The trees of the elements `vs`: each is one the element may be written as, and later occurrences of
pointers are references. -/
structure Elements (c : ECfg) (inp : Heap) (vs : List Val) (ts : List Tree) : Prop where
  len : ts.length = vs.length
  written : ∀ (i : Nat) t v, ts[i]? = some t → vs[i]? = some v → Written c inp false v t
  later : ∀ (i j : Nat) v b a t, i < j → vs[i]? = some v → HasPtr c inp a v → vs[j]? = some (.ptr b a) →
    (b = false → isPerlStruct (inp.cellAt a) = false) → ts[j]? = some t → Later c inp a t

theorem arrFirst (hord : ∀ n ks, (c.ord n ks).Perm ks) (d : Nat) (vs : List Val) :
    EncFirst c inp base (emit (typeARRAY :: varint vs.length) >>= fun _ =>
        encodeElems (fun v => encode c inp (d + 1) v false false) vs)
      (fun t => ∃ ts, t = .arr ts ∧ Elements c inp vs ts) := by
  intro s s' g hi hs he
  refine tagFirst (by decide) hi hs he (Q := fun g2 t B T T' => ∀ ts, t = .arr ts → (∀ t ∈ ts, Fits maxSize t) →
        G wrtDialect B false (.items vs.length) (g.start (typeARRAY :: varint vs.length)).raw.length T
          (.trees ts) g2.raw.length T') (fun s1 hi1 hs1 h1 => ?_)
  have hcl : Closed c inp s1 (g.start (typeARRAY :: varint vs.length)) := by
    intro κ o ho
    rw [hs1] at ho
    cases ho
  obtain ⟨g2, ts, hl, hW, hL, hst, hf, hlen⟩ := elemsAgain hord d vs [] s1 s' _ hi1 hcl (by simp) h1
  refine ⟨g2, .arr ts, ⟨ts, rfl, hl, hW, ?_⟩, hst.mono ?_, .arr (by omega) hf, ?_⟩
  · intro i j v b a t hij hv hh hp hnp ht
    refine hL j t b a ht hp hnp ⟨v, ?_, hh⟩
    rw [List.nil_append]
    refine List.mem_of_getElem? (i := i) ?_
    rw [List.getElem?_take_of_lt hij]
    exact hv
  · rintro B T T' h ts' he
    cases he
    exact h
  · intro B T T' hQ _ hF hsp
    cases hF with
    | arr hn hF =>
      have := hQ ts rfl hF
      exact .array (Vint.of_span hsp (Nat.lt_of_le_of_lt (hl ▸ hn) (by decide))) (hl ▸ hn) this

theorem encodeArr_first (hord : ∀ n ks, (c.ord n ks).Perm ks) (d : Nat) (vs : List Val) :
    EncFirst c inp base (encodeArr c (fun v => encode c inp (d + 1) v false false) vs false)
      (fun t => ∃ ts, t = refWrap c.perlCompat (.arr ts) ∧ Elements c inp vs ts) := by
  have h := @arrFirst c inp base hord d vs
  unfold encodeArr
  cases hb : c.perlCompat with
  | false =>
    rw [if_neg (by simp)]
    exact h
  | true =>
    rw [if_pos (by simp)]
    intro s s' g hi hs he
    refine tagFirst (tag := typeREFN) (w := []) (by decide) hi hs he (R := fun t => ∃ ts, t = refWrap true (.arr ts) ∧
        Elements c inp vs ts) (Q := fun g2 t B T T' => ∀ t0, t = .ref t0 → Fits maxSize t0 →
          G wrtDialect B false .item (g.start [typeREFN]).raw.length T (.tree t0) g2.raw.length T')
      (fun s1 hi1 hs1 h1 => ?_)
    obtain ⟨g2, t, ⟨ts, rfl, hE⟩, hst, hseen, hf⟩ := h s1 s' _ hi1 hs1 h1
    refine ⟨g2, .ref (.arr ts), ⟨ts, rfl, hE⟩, hst.mono ?_, .ref hf, ?_⟩
    · rintro B T T' h t0 h0
      cases h0
      exact h
    · intro B T T' hQ _ hF hsp
      have := hQ _ rfl (Fits.ref_iff.1 hF)
      rw [start_length] at this
      exact .refn this

/-- The body of a document holding a slice. -/
theorem encodeAfter_slice (hord : ∀ n ks, (c.ord n ks).Perm ks) {pre w : Bytes} {p n : Nat}
    (h : encodeAfter c inp pre (.slice p n) = .ok w) (hsz : pre.length + w.length < 2 ^ 63) :
    ∃ t, (∃ ts, t = refWrap c.perlCompat (.arr ts) ∧ Elements c inp (sliceVals inp p n) ts) ∧
      Fits (pre.length + w.length) t ∧
      ∀ pre' ext, pre'.length = pre.length → Fits maxSize t →
        Denotes wrtDialect (pre' ++ w ++ ext) pre.length t (pre.length + w.length) := by
  refine encodeAfter_of (fun s s' g hi hs he => ?_) h hsz
  match hd : remainingRecursion c.maxRecursionDepth with
  | 0 => rw [hd] at he; cases he
  | 1 => rw [hd] at he; cases he
  | d + 2 => rw [hd] at he; exact encodeArr_first hord d _ s s' g hi hs he

/-- In every document Marshal produces for a slice, each element has a tree it may be written as; and when
an element is a pointer that an earlier element contains (anywhere, but not only behind another pointer), it
is written as a reference to an item written before.

Full claim (C30): that item is the one the first occurrence points at.  Missing: by `Later.again` it is
the REFN item of the earlier occurrence, not what follows it, or (by `Later.share`, and since `IsKey`
also compares addresses of data) an item of another pointer leading to the same memory; see `C30_fails`
and `C30_overlap`. -/
theorem C30_partial (cfg : ECfg) (cs : Codecs) (inp : Heap) (header : Option Val) (p n : Nat) (doc : Bytes)
    (hord : ∀ n ks, (cfg.ord n ks).Perm ks) (hver : cfg.version ≤ 3) (hc : cfg.compression = none)
    (h : marshalWithHeader cfg cs inp header (.slice p n) = .ok doc) (hsz : doc.length < 2 ^ 31) :
    ∃ lf suf body ts, IsDoc doc cfg.ver 0 lf suf body ∧
      Denotes wrtDialect (itemBuf cfg.ver (headBytes cfg.ver 0 lf suf) body).1
        (itemBuf cfg.ver (headBytes cfg.ver 0 lf suf) body).2 (refWrap cfg.perlCompat (.arr ts))
        (itemBuf cfg.ver (headBytes cfg.ver 0 lf suf) body).1.length ∧
      ts.length = n ∧
      (∀ (i : Nat) t, ts[i]? = some t → Written cfg inp false (inp.cellAt (p + i)) t) ∧
      ∀ (i j : Nat) b a t, i < j → HasPtr cfg inp a (inp.cellAt (p + i)) → inp.cellAt (p + j) = .ptr b a →
        (b = false → isPerlStruct (inp.cellAt a) = false) → ts[j]? = some t → Later cfg inp a t := by
  obtain ⟨lf, suf, body, pre0, pre, h1, h2, h3, h4, h5, h6⟩ := raw_body hver hc h (by omega)
  have hlen : pre0.length + body.length = (pre ++ body).length := by simp [h4]
  obtain ⟨_, ⟨ts, rfl, hE⟩, hF, hD⟩ := encodeAfter_slice hord h3 (by omega)
  have hn : ts.length = n := by rw [hE.len, sliceVals_length]
  refine ⟨lf, suf, body, ts, h1, ?_, hn, ?_, ?_⟩
  · have := hD pre [] h4.symm (hF.mono (by have : maxSize = 2 ^ 31 - 1 := rfl; omega))
    rw [List.append_nil, hlen, h4] at this
    rw [h5]
    exact this
  · intro i t ht
    refine hE.written i t _ ht (sliceVals_get ?_)
    have := (List.getElem?_eq_some_iff.1 ht).1
    omega
  · intro i j b a t hij hh hp hnp ht
    have := (List.getElem?_eq_some_iff.1 ht).1
    refine hE.later i j _ b a t hij (sliceVals_get (by omega)) hh ?_ hnp ht
    rw [sliceVals_get (by omega), hp]

/-- The slice at 10, `[p, p]`, for a pointer `p` to the variable at 2, an int holding 9. -/
def samePtrHeap : Heap where
  mem a := if a = 10 then .cell (.ptr false 2) else if a = 11 then .cell (.ptr false 2)
    else if a = 2 then .cell (.int .int 9) else .cell .nil
  next := 12

/-- Non-vacuity of `C30_partial`: the hypotheses hold for `[p, p]`, whose second element is a pointer the
first one contains. -/
example : marshal {} noCodecs samePtrHeap (.slice 10 2) =
      .ok [0x3d, 0xf3, 0x72, 0x6c, 3, 0, 0x2b, 2, 0xa8, 9, 0x29, 3] ∧
    HasPtr {} samePtrHeap 2 (samePtrHeap.cellAt 10) ∧ samePtrHeap.cellAt 11 = .ptr false 2 :=
  ⟨by decide +kernel, .ptr (fun _ => rfl), rfl⟩

/-- The elements of a decoded array of two, and the variables they point at if they are pointers. -/
def twoPointees (r : Res (Heap × Val)) : Option (Val × Val) :=
  match r with
  | .ok (h, .slice q 2) =>
    match h.cellAt q, h.cellAt (q + 1) with
    | .ptr _ x, .ptr _ y => some (h.cellAt x, h.cellAt y)
    | _, _ => none
  | _ => none

/-- The full claim of C30 on `[p, p]` would make a PerlCompat decoder (which keeps references) deliver two
pointers to the number; the second one is a pointer to a pointer instead. -/
theorem C30_fails : ¬ ∀ (cfg : ECfg) (cs : Codecs) (inp : Heap) (p a : Nat) (i : Int64) (doc : Bytes) (h : Heap) (v : Val),
    inp.cellAt p = .ptr false a → inp.cellAt (p + 1) = .ptr false a → inp.cellAt a = .int .int i →
    marshal cfg cs inp (.slice p 2) = .ok doc → unmarshal { perlCompat := true } cs doc = .ok (h, v) →
    twoPointees (.ok (h, v)) = some (.int .int i, .int .int i) := by
  intro H
  let bytes : Bytes := [0x3d, 0xf3, 0x72, 0x6c, 3, 0, 0x2b, 2, 0xa8, 9, 0x29, 3]
  have d1 : marshal {} noCodecs samePtrHeap (.slice 10 2) = .ok bytes := by decide +kernel
  have e1 : (match twoPointees (unmarshal { perlCompat := true } noCodecs bytes) with
    | some (.int .int 9, .ptr _ _) => true
    | _ => false) = true := by decide +kernel
  cases u1 : unmarshal { perlCompat := true } noCodecs bytes with
  | error e => rw [u1] at e1; cases e1
  | ok r =>
    obtain ⟨h, v⟩ := r
    rw [u1, H {} noCodecs samePtrHeap 10 2 9 bytes h v rfl rfl rfl d1 u1] at e1
    cases e1

/-- The slice at 10, `[&s, &s[0]]`, for a slice variable `s` at 2 with one element, stored at 4. -/
def overlapHeap : Heap where
  mem a := if a = 10 then .cell (.ptr false 2) else if a = 11 then .cell (.ptr false 4)
    else if a = 2 then .cell (.slice 4 1) else if a = 4 then .cell (.int .int 9) else .cell .nil
  next := 12

/-- Two different pointers are taken for the same when one leads to a slice and the other to its first
element: `[&s, &s[0]]` becomes `[&s, &s]`, and the decoded second element leads to the array rather than to
the number. -/
theorem C30_overlap :
    marshal {} noCodecs overlapHeap (.slice 10 2) =
      .ok [0x3d, 0xf3, 0x72, 0x6c, 3, 0, 0x2b, 2, 0x28, 0xab, 1, 9, 0x29, 4] ∧
    (match twoPointees (unmarshal { perlCompat := true } noCodecs
        [0x3d, 0xf3, 0x72, 0x6c, 3, 0, 0x2b, 2, 0x28, 0xab, 1, 9, 0x29, 4]) with
      | some (.slice q 1, .slice q' 1) => q == q'
      | _ => false) = true := by decide +kernel

end Sereal
