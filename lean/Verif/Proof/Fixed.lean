import Verif.Spec.Tidy
import Verif.Proof.Tidy
/-
Without deduplication, what is written for a value without pointers does not depend on what was
written before.
-/
namespace Sereal

/-- The action appends bytes that depend on nothing but the number of map iterations so far. -/
def Fixed (x : E Unit) : Prop :=
  ∀ n, (∃ e, ∀ s : EState, s.visits = n → x s = .error e) ∨
    (∃ w m, ∀ s : EState, s.visits = n → x s = .ok ((), { s with buf := s.buf ++ w, visits := m }))

theorem Fixed.bind {x : E Unit} {f : Unit → E Unit} (hx : Fixed x) (hf : Fixed (f ())) : Fixed (x >>= f) := by
  intro n
  rcases hx n with ⟨e, h⟩ | ⟨w, m, h⟩
  · left
    refine ⟨e, fun s hs => ?_⟩
    show E.bind x f s = _
    unfold E.bind; rw [h s hs]
  · rcases hf m with ⟨e, h'⟩ | ⟨w', m', h'⟩
    · left
      refine ⟨e, fun s hs => ?_⟩
      show E.bind x f s = _
      unfold E.bind; rw [h s hs]; exact h' _ rfl
    · right
      refine ⟨w ++ w', m', fun s hs => ?_⟩
      show E.bind x f s = _
      unfold E.bind; rw [h s hs]
      refine (h' _ rfl).trans ?_
      simp only [List.append_assoc]

theorem Fixed.emit (bs : Bytes) : Fixed (emit bs) := fun n => .inr ⟨bs, n, fun s hs => by subst hs; rfl⟩
theorem Fixed.pure : Fixed (Pure.pure ()) := fun n => .inr ⟨[], n, fun s hs => by
  subst hs
  show Except.ok ((), s) = _
  simp⟩
theorem Fixed.fail (e : Exn) : Fixed (E.fail e) := fun _ => .inl ⟨e, fun _ _ => rfl⟩
theorem Fixed.err (e : Err) : Fixed (E.err e) := Fixed.fail _

theorem Fixed.range (cfg : ECfg) (ks : List Bytes) {f : List Bytes → E Unit} (hf : ∀ ks', Fixed (f ks')) :
    Fixed (rangeKeys cfg ks >>= f) := by
  intro n
  rcases hf (cfg.ord n ks) (n + 1) with ⟨e, h'⟩ | ⟨w', m', h'⟩
  · left
    refine ⟨e, fun s hs => ?_⟩
    subst hs
    exact h' _ rfl
  · right
    refine ⟨w', m', fun s hs => ?_⟩
    subst hs
    exact h' _ rfl

theorem Fixed.ite {p : Prop} [Decidable p] {x y : E Unit} (hx : Fixed x) (hy : Fixed y) :
    Fixed (if p then x else y) := by
  split
  · exact hx
  · exact hy

theorem Fixed.opt {p : Prop} [Decidable p] {x : E Unit} {f : Unit → E Unit} (hx : Fixed x) (hf : Fixed (f ())) :
    Fixed (if p then x >>= f else f ()) := Fixed.ite (hx.bind hf) hf

variable {cfg : ECfg} (hd : cfg.disableDedup = true)
include hd

theorem Fixed.encodeString (s : Bytes) (ik : Bool) : Fixed (encodeString cfg s ik) := by
  unfold Sereal.encodeString
  rw [hd]
  exact Fixed.emit _

theorem Fixed.encodeBytes (s : Bytes) (ik : Bool) : Fixed (encodeBytes cfg s ik) := by
  unfold Sereal.encodeBytes
  rw [hd]
  exact Fixed.emit _

theorem Fixed.encodeJsonNumber (s : Bytes) (ik : Bool) : Fixed (encodeJsonNumber cfg s ik) := by
  unfold Sereal.encodeJsonNumber
  split
  · exact Fixed.emit _
  · exact Fixed.encodeString hd _ _
  · split
    · exact Fixed.emit _
    · exact Fixed.encodeString hd _ _

omit hd in
theorem Fixed.encodeElems {rec : Val → E Unit} {vs : List Val} (h : ∀ v ∈ vs, Fixed (rec v)) :
    Fixed (encodeElems rec vs) := by
  induction vs with
  | nil => exact Fixed.pure
  | cons v vs ih =>
    exact (h v (by simp)).bind (ih (fun v hv => h v (by simp [hv])))

omit hd in
theorem Fixed.encodeArr {rec : Val → E Unit} {vs : List Val} {rn : Bool} (h : ∀ v ∈ vs, Fixed (rec v)) :
    Fixed (encodeArr cfg rec vs rn) := by
  unfold Sereal.encodeArr
  exact Fixed.opt (Fixed.emit _) ((Fixed.emit _).bind (Fixed.encodeElems h))

theorem Fixed.encodePairs {rec : Val → E Unit} {kvs : List (Bytes × Val)} {ik : Bool} (ks : List Bytes)
    (h0 : Fixed (rec .nil)) (h : ∀ k v, mapLookup k kvs = some v → Fixed (rec v)) :
    Fixed (encodePairs (fun k => Sereal.encodeString cfg k ik) rec kvs ks) := by
  induction ks with
  | nil => exact Fixed.pure
  | cons k ks ih =>
    refine (Fixed.encodeString hd _ _).bind (Fixed.bind ?_ ih)
    cases hk : mapLookup k kvs with
    | none => exact h0
    | some v => exact h k v hk

theorem Fixed.encodeMp {rec : Val → E Unit} {kvs : List (Bytes × Val)} {rn ik : Bool}
    (h0 : Fixed (rec .nil)) (h : ∀ k v, mapLookup k kvs = some v → Fixed (rec v)) :
    Fixed (encodeMp cfg rec kvs rn ik) := by
  unfold Sereal.encodeMp
  exact Fixed.opt (Fixed.emit _) ((Fixed.emit _).bind (Fixed.range _ _ (fun ks => Fixed.encodePairs hd ks h0 h)))

theorem Fixed.encodeFields {rec : Val → E Unit} {tags : List (Bytes × Field)} (ks : List Bytes)
    (h : ∀ k f, mapLookup k tags = some f → Fixed (rec f.val)) :
    Fixed (encodeFields cfg rec tags ks) := by
  induction ks with
  | nil => exact Fixed.pure
  | cons k ks ih =>
    refine (Fixed.encodeString hd _ _).bind ?_
    cases hk : mapLookup k tags with
    | none => exact Fixed.bind (x := Pure.pure ()) (f := fun _ => Sereal.encodeFields cfg rec tags ks) Fixed.pure ih
    | some f =>
      dsimp only
      split
      · exact Fixed.bind (Fixed.fail _) ih
      · exact (h k f hk).bind ih

theorem Fixed.encodeStrct {rec : Val → E Unit} {name : Bytes} {fs : List Field}
    (h : ∀ k f, mapLookup k (structTags fs []) = some f → Fixed (rec f.val)) :
    Fixed (encodeStrct cfg rec name fs) := by
  unfold Sereal.encodeStrct
  refine (Fixed.emit _).bind ((Fixed.encodeBytes hd _ _).bind (Fixed.opt (Fixed.emit _) ((Fixed.emit _).bind
    (Fixed.range _ _ (fun ks => Fixed.encodeFields hd ks h)))))

omit hd in
/-- The recursive call of encode. -/
def recOf (cfg : ECfg) (inp : Heap) : Nat → Option (Val → Bool → Bool → E Unit)
  | 0 => none
  | 1 => none
  | d + 2 => some (encode cfg inp (d + 1))

omit hd in
theorem encode_recOf (inp : Heap) (d : Nat) (v : Val) (ik rn : Bool) :
    encode cfg inp d v ik rn = encodeVal cfg inp (recOf cfg inp d) v ik rn := by
  match d with
  | 0 => rfl
  | 1 => rfl
  | d + 2 => rfl

omit hd in
theorem recOf_cases (inp : Heap) (d : Nat) :
    recOf cfg inp d = none ∨ ∃ d', recOf cfg inp d = some (encode cfg inp d') := by
  match d with
  | 0 => exact .inl rfl
  | 1 => exact .inl rfl
  | d + 2 => exact .inr ⟨d + 1, rfl⟩

omit hd in
theorem Fixed.nil (inp : Heap) (d : Nat) (ik rn : Bool) : Fixed (encode cfg inp d .nil ik rn) := by
  rw [encode_recOf]; unfold encodeVal; exact Fixed.emit _

omit hd in
theorem Fixed.deep {inp : Heap} {d : Nat} {f : (Val → Bool → Bool → E Unit) → E Unit}
    (h : ∀ d', Fixed (f (encode cfg inp d'))) :
    Fixed (match recOf cfg inp d with | none => E.err .maxRecursion | some rec => f rec) := by
  rcases recOf_cases inp d with h' | ⟨d', h'⟩
  · rw [h']; exact Fixed.err _
  · rw [h']; exact h d'

theorem Tidy.fixed {w : ViewCfg} {n : Nat} {inp : Heap} {v : Val} (hp : Tidy cfg w n inp v)
    (hn : NoPointers cfg inp v) : ∀ d ik rn, Fixed (encode cfg inp d v ik rn) := by
  have hvals : ∀ (p len : Nat), (∀ i, i < len → ∀ d ik rn, Fixed (encode cfg inp d (inp.cellAt (p + i)) ik rn)) →
      ∀ d' v, v ∈ sliceVals inp p len → Fixed (encode cfg inp d' v false false) := by
    intro p len ih d' v hv
    obtain ⟨i, hi, rfl⟩ := List.mem_map.1 hv
    exact ih i (List.mem_range.1 hi) _ _ _
  induction hp with
  | nil => intro d ik rn; exact Fixed.nil _ _ _ _
  | bool | int | uint | f32 | f64 | nbool | nint | nf32 | nf64 | undef =>
    intro d ik rn; rw [encode_recOf]; unfold encodeVal; exact Fixed.emit _
  | str | nstr => intro d ik rn; rw [encode_recOf]; unfold encodeVal; exact Fixed.encodeString hd _ _
  | bin => intro d ik rn; rw [encode_recOf]; unfold encodeVal; exact Fixed.encodeBytes hd _ _
  | jnum => intro d ik rn; rw [encode_recOf]; unfold encodeVal; exact Fixed.encodeJsonNumber hd _ _
  | slice _ _ ih =>
    intro d ik rn; rw [encode_recOf]; unfold encodeVal
    exact Fixed.deep (fun d' => Fixed.encodeArr (hvals _ _ (fun i hi => ih i hi (hn.sub (.inl (.elem hi)))) d'))
  | rslice _ _ ih =>
    intro d ik rn; rw [encode_recOf]; unfold encodeVal
    exact Fixed.deep (fun d' => Fixed.encodeArr (hvals _ _ (fun i hi => ih i hi (hn.sub (.inl (.relem hi)))) d'))
  | smap _ _ _ _ ih =>
    intro d ik rn; rw [encode_recOf]; unfold encodeVal
    exact Fixed.deep (f := fun rec => encodeMp cfg (fun v => rec v false false) _ rn true)
      (fun d' => Fixed.encodeMp hd (Fixed.nil _ _ _ _) (fun k v hk => ih k v hk (hn.sub (.inl (.entry hk))) _ _ _))
  | rmap _ _ _ _ ih =>
    intro d ik rn; rw [encode_recOf]; unfold encodeVal
    exact Fixed.deep (f := fun rec => encodeMp cfg (fun v => rec v false false) _ rn cfg.perlCompat)
      (fun d' => Fixed.encodeMp hd (Fixed.nil _ _ _ _) (fun k v hk => ih k v hk (hn.sub (.inl (.rentry hk))) _ _ _))
  | strct _ _ _ _ ih =>
    intro d ik rn; rw [encode_recOf]; unfold encodeVal
    refine Fixed.deep (f := fun rec => encodeStrct cfg (fun v => rec v false false) _ _)
      (fun d' => Fixed.encodeStrct hd (fun k f hk => ih k f.val ?_ (hn.sub (.inl (.field (writesField_iff.1 hk)))) _ _ _))
    rw [← structTags_lookup, hk]; rfl
  | obj _ _ ih =>
    intro d ik rn; rw [encode_recOf]; unfold encodeVal
    refine (Fixed.emit _).bind ((Fixed.encodeBytes hd _ _).bind ?_)
    rw [← encode_recOf]; exact ih (hn.sub (.inr (.inl .obj))) _ _ _
  | weak _ ih =>
    intro d ik rn; rw [encode_recOf]; unfold encodeVal
    refine (Fixed.emit _).bind ?_
    rw [← encode_recOf]; exact ih (hn.sub (.inr (.inl .weak))) _ _ _
  | regexp =>
    intro d ik rn; rw [encode_recOf]; unfold encodeVal
    exact (Fixed.emit _).bind ((Fixed.encodeBytes hd _ _).bind (Fixed.encodeBytes hd _ _))
  | @frozen cls data _ _ _ =>
    intro d ik rn; rw [encode_recOf]; unfold encodeVal
    refine Fixed.deep (f := fun rec => encodeStrct cfg (fun v => rec v false false) _ _)
      (fun d' => Fixed.encodeStrct hd (fun k f hk => ?_))
    have h1 : lastLookup k (fieldEntries [⟨nameClass, [], true, .str cls⟩, ⟨nameData, [], true, .bin data⟩]) =
        some f.val := by rw [← structTags_lookup, hk]; rfl
    have h2 := lastLookup_mem h1
    have h3 : f.val = .str cls ∨ f.val = .bin data := by
      simp [fieldEntries, effName, nameClass, nameData] at h2
      rcases h2 with ⟨_, h⟩ | ⟨_, h⟩
      · exact .inl h
      · exact .inr h
    rcases h3 with h3 | h3
    · rw [h3, encode_recOf]; unfold encodeVal; exact Fixed.encodeString hd _ _
    · rw [h3, encode_recOf]; unfold encodeVal; exact Fixed.encodeBytes hd _ _
  | marshaler hf =>
    intro d ik rn; rw [encode_recOf]; unfold encodeVal
    rw [if_neg (by rw [hf]; decide)]
    exact (Fixed.emit _).bind ((Fixed.encodeString hd _ _).bind ((Fixed.emit _).bind ((Fixed.emit _).bind
      (Fixed.encodeBytes hd _ _))))
  | marshalerOff hf _ ih =>
    intro d ik rn; rw [encode_recOf]; unfold encodeVal
    rw [if_pos hf, ← encode_recOf]; exact ih (hn.sub (.inr (.inl (.under hf)))) _ _ _
  | nilptr =>
    intro d ik rn; rw [encode_recOf]; unfold encodeVal
    rcases recOf_cases (cfg := cfg) inp d with h' | ⟨d', h'⟩
    · rw [h']; exact Fixed.err _
    · rw [h']; exact Fixed.emit _
  | @perlPtr a hps _ ih =>
    intro d ik rn; rw [encode_recOf]; unfold encodeVal
    refine Fixed.deep (f := fun rec => encodePtr cfg inp (fun v rn => rec v false rn) _ _) (fun d' => ?_)
    unfold encodePtr
    show Fixed (if (!false && isPerlStruct (inp.cellAt a)) = true then _ else _)
    rw [if_pos (by rw [hps]; rfl)]
    exact ih (hn.sub (.inl (.perl (perl_iff.1 hps)))) _ _ _
  | ptr h => exact absurd (tidy_ordPtr h) (hn.not_ptr _)

/-- What is written does not depend on what was written before. -/
theorem Tidy.encodeAfter_pre {w : ViewCfg} {n : Nat} {inp : Heap} {v : Val} (hp : Tidy cfg w n inp v)
    (hn : NoPointers cfg inp v) (pre pre' : Bytes) : encodeAfter cfg inp pre v = encodeAfter cfg inp pre' v := by
  unfold encodeAfter
  rcases hp.fixed hd hn (remainingRecursion cfg.maxRecursionDepth) false false 0 with ⟨e, h⟩ | ⟨w, m, h⟩
  · rw [h _ rfl, h _ rfl]
  · rw [h _ rfl, h _ rfl]; simp

end Sereal
