import Verif.Proof.EmitEnc
/-
The encoder writes at least one byte for every value.
-/
namespace Sereal

/-- `x` appends at least `n` bytes. -/
def Lengthens (n : Nat) (x : E α) : Prop := ∀ s a s', x s = .ok (a, s') → s.buf.length + n ≤ s'.buf.length

namespace Lengthens

theorem mono {n m : Nat} {x : E α} (h : Lengthens n x) (hnm : m ≤ n) : Lengthens m x := fun s a s' e => by
  have := h s a s' e; omega

theorem fail {e : Exn} {n : Nat} : Lengthens n (E.fail e : E α) := fun _ _ _ e => by cases e

theorem pure {a : α} : Lengthens 0 (Pure.pure a : E α) := fun s _ _ e => by cases e; exact Nat.le_refl _

theorem bind {n m : Nat} {x : E α} {f : α → E β} (hx : Lengthens n x) (hf : ∀ a, Lengthens m (f a)) : Lengthens (n + m) (x >>= f) := by
  intro s b s2 e
  obtain ⟨a, s1, e1, e2⟩ := E.bind_ok.1 e
  have := hx s a s1 e1
  have := hf a s1 b s2 e2
  omega

/-- The first step appends `n` bytes already. -/
theorem first {n : Nat} {x : E α} {f : α → E β} (hx : Lengthens n x) (hf : ∀ a, Lengthens 0 (f a)) : Lengthens n (x >>= f) := bind hx hf

theorem emit {w : Bytes} : Lengthens w.length (Sereal.emit w) := fun s a s' e => by cases e; simp

theorem emit_pos {w : Bytes} (h : w ≠ []) : Lengthens 1 (Sereal.emit w) := mono emit (List.length_pos_iff.2 h)

theorem get {f : EState → E β} {n : Nat} (h : ∀ t, Lengthens n (f t)) : Lengthens n (E.get >>= f) := fun s b s' e => by
  obtain ⟨t, s1, e1, e2⟩ := E.bind_ok.1 e
  cases e1
  exact h s s b s' e2

theorem rememberStr {k : Bytes} : Lengthens 0 (Sereal.rememberStr k) := fun s a s' e => by cases e; exact Nat.le_refl _

theorem rememberPtr {a : Addr} {o : Nat} : Lengthens 0 (Sereal.rememberPtr a o) := fun s a s' e => by cases e; exact Nat.le_refl _

theorem setTrackFlag {o : Nat} : Lengthens 0 (Sereal.setTrackFlag o) := fun s a s' e => by
  unfold Sereal.setTrackFlag at e
  split at e
  · cases e; simp
  · cases e

theorem rangeKeys {cfg : ECfg} {ks : List Bytes} : Lengthens 0 (Sereal.rangeKeys cfg ks) := fun s a s' e => by cases e; exact Nat.le_refl _

theorem int_ne (b : Bool) (i : Int64) : encodeInt b i ≠ [] := by
  unfold encodeInt
  repeat' split
  all_goals simp

theorem string (cfg : ECfg) (s : Bytes) (b : Bool) : Lengthens 1 (encodeString cfg s b) := by
  unfold encodeString
  split
  · refine get fun t => ?_
    split
    · exact emit_pos (by simp [copyItem])
    · exact bind rememberStr fun _ => emit_pos (by simp [strItem])
  · exact emit_pos (by simp [strItem])

theorem bin_ne (s : Bytes) : binItem s ≠ [] := by unfold binItem; split <;> simp

theorem bytes (cfg : ECfg) (s : Bytes) (b : Bool) : Lengthens 1 (encodeBytes cfg s b) := by
  unfold encodeBytes
  split
  · refine get fun t => ?_
    split
    · exact emit_pos (by simp [copyItem])
    · exact bind rememberStr fun _ => emit_pos (bin_ne _)
  · exact emit_pos (bin_ne _)

theorem jnum (cfg : ECfg) (s : Bytes) (b : Bool) : Lengthens 1 (encodeJsonNumber cfg s b) := by
  unfold encodeJsonNumber
  split
  · exact emit_pos (int_ne _ _)
  · exact string _ _ _
  · split
    · exact emit_pos (by simp [encodeDouble])
    · exact string _ _ _

theorem elems {rec : Val → E Unit} (h : ∀ v, Lengthens 1 (rec v)) (l : List Val) : Lengthens l.length (encodeElems rec l) := by
  induction l with
  | nil => exact pure
  | cons x l ih => rw [List.length_cons, Nat.add_comm]; exact bind (h x) fun _ => ih

theorem pairs {key : Bytes → E Unit} {rec : Val → E Unit} {kvs : List (Bytes × Val)} (hk : ∀ k, Lengthens 1 (key k)) (h : ∀ v, Lengthens 1 (rec v))
    (ks : List Bytes) : Lengthens (2 * ks.length) (encodePairs key rec kvs ks) := by
  induction ks with
  | nil => exact pure
  | cons x l ih =>
    rw [List.length_cons]
    exact mono (bind (hk x) fun _ => bind (h _) fun _ => ih) (by omega)

theorem fields {cfg : ECfg} {rec : Val → E Unit} {tags : List (Bytes × Field)} (h : ∀ v, Lengthens 1 (rec v)) (ks : List Bytes) :
    Lengthens ks.length (encodeFields cfg rec tags ks) := by
  induction ks with
  | nil => exact pure
  | cons k l ih =>
    rw [List.length_cons]
    unfold encodeFields
    refine mono (n := 1 + l.length) (bind (string _ _ _) fun _ => ?_) (by omega)
    cases mapLookup k tags with
    | none => exact ih
    | some f =>
      dsimp only
      split
      · exact mono (bind (f := fun _ : Unit => encodeFields cfg rec tags l) (fail (n := 0)) fun _ => ih) (by omega)
      · exact mono (bind (h _) fun _ => ih) (by omega)

theorem opt {c : Bool} {w : Bytes} {x : E Unit} {n : Nat} (h : Lengthens n x) :
    Lengthens n (do
      if c then Sereal.emit w
      x) := by
  split
  · exact mono (bind emit fun _ => h) (by omega)
  · exact h

theorem arr {cfg : ECfg} {rec : Val → E Unit} (h : ∀ v, Lengthens 1 (rec v)) (l : List Val) (rn : Bool) : Lengthens 1 (encodeArr cfg rec l rn) :=
  opt (first (emit_pos (by simp)) fun _ => mono (elems h l) (Nat.zero_le _))

theorem mp {cfg : ECfg} {rec : Val → E Unit} (h : ∀ v, Lengthens 1 (rec v)) (kvs : List (Bytes × Val)) (rn vs : Bool) :
    Lengthens 1 (encodeMp cfg rec kvs rn vs) :=
  opt (first (emit_pos (by simp)) fun _ => first rangeKeys fun ks => mono (pairs (fun _ => string _ _ _) h ks) (Nat.zero_le _))

theorem strct {cfg : ECfg} {rec : Val → E Unit} (h : ∀ v, Lengthens 1 (rec v)) (name : Bytes) (fs : List Field) :
    Lengthens 1 (encodeStrct cfg rec name fs) :=
  first (emit_pos (by simp)) fun _ => first (mono (bytes _ _ _) (Nat.zero_le _)) fun _ =>
    opt (first (mono emit (Nat.zero_le _)) fun _ => first rangeKeys fun ks => mono (fields h ks) (Nat.zero_le _))

theorem ptr {cfg : ECfg} {inp : Heap} {rec : Val → Bool → E Unit} (h : ∀ v rn, Lengthens 1 (rec v rn)) (b : Bool) (a : Addr) :
    Lengthens 1 (encodePtr cfg inp rec b a) := by
  unfold encodePtr
  dsimp only
  split
  · exact h _ _
  · split
    · exact fail
    · refine get fun t => ?_
      split
      · exact first (emit_pos (by simp)) fun _ => setTrackFlag
      · refine first (emit_pos (by simp)) fun _ => first rememberPtr fun _ => first (mono (h _ _) (Nat.zero_le _)) fun _ => ?_
        split
        · exact rememberPtr
        · exact pure

theorem val {cfg : ECfg} {inp : Heap} {rec : Option (Val → Bool → Bool → E Unit)}
    (h : ∀ r, rec = some r → ∀ v ik rn, Lengthens 1 (r v ik rn)) (v : Val) : ∀ ik rn, Lengthens 1 (encodeVal cfg inp rec v ik rn) := by
  induction v with
  | obj cls v ih => exact fun ik rn => first (emit_pos (by simp)) fun _ => first (mono (bytes _ _ _) (Nat.zero_le _)) fun _ => mono (ih _ _) (Nat.zero_le _)
  | weak v ih => exact fun ik rn => first (emit_pos (by simp)) fun _ => mono (ih _ _) (Nat.zero_le _)
  | marshaler cls res v ih =>
    intro ik rn
    unfold encodeVal
    split
    · exact ih _ _
    · split
      · exact fail
      · exact first (emit_pos (by simp)) fun _ => first (mono (string _ _ _) (Nat.zero_le _)) fun _ =>
          first (mono emit (Nat.zero_le _)) fun _ => first (mono emit (Nat.zero_le _)) fun _ => mono (bytes _ _ _) (Nat.zero_le _)
  | regexp => exact fun ik rn => first (emit_pos (by simp)) fun _ => first (mono (bytes _ _ _) (Nat.zero_le _)) fun _ => mono (bytes _ _ _) (Nat.zero_le _)
  | nil | bool | nbool | undef => exact fun ik rn => emit_pos (by simp)
  | int | uint | nint => exact fun ik rn => emit_pos (int_ne _ _)
  | f32 | f64 | nf32 | nf64 => exact fun ik rn => emit_pos (by simp [encodeFloat, encodeDouble])
  | jnum => exact fun ik rn => jnum _ _ _
  | str | nstr => exact fun ik rn => string _ _ _
  | bin => exact fun ik rn => bytes _ _ _
  | slice | rslice => intro ik rn; cases rec with
    | none => exact fail
    | some r => exact arr (fun v => h r rfl v _ _) _ _
  | smap | rmap => intro ik rn; cases rec with
    | none => exact fail
    | some r => exact mp (fun v => h r rfl v _ _) _ _ _
  | strct | frozen => intro ik rn; cases rec with
    | none => exact fail
    | some r => exact strct (fun v => h r rfl v _ _) _ _
  | ptr b a => intro ik rn; cases rec with
    | none => exact fail
    | some r => exact ptr (rec := fun v rn => r v false rn) (fun v rn => h r rfl v _ _) _ _
  | nilptr => intro ik rn; cases rec with
    | none => exact fail
    | some r => exact emit_pos (by simp)
  | thawed | nuint | unsupported => exact fun ik rn => fail

end Lengthens

theorem encode_grows (cfg : ECfg) (inp : Heap) (d : Nat) : ∀ v ik rn, Lengthens 1 (encode cfg inp d v ik rn) := by
  induction d using encode.induct with
  | case1 => exact Lengthens.val (fun r h => by cases h)
  | case2 => exact Lengthens.val (fun r h => by cases h)
  | case3 d ih => exact Lengthens.val (fun r h => by cases h; exact ih)

/-- What is written for a value is not empty. -/
theorem encodeAfter_ne {cfg : ECfg} {inp : Heap} {pre w : Bytes} {v : Val} (h : encodeAfter cfg inp pre v = .ok w) : w ≠ [] := by
  unfold encodeAfter at h
  split at h
  · next s hs =>
    cases h
    have := encode_grows cfg inp _ v false false _ _ _ hs
    dsimp only at this
    intro hn
    rw [List.drop_eq_nil_iff] at hn
    omega
  · cases h

end Sereal
