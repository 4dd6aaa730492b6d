import Verif.Spec.Nest
import Verif.Proof.Marshal
import Verif.Proof.EmitMain
/-
When encode succeeds on data made of slices and maps.
-/
namespace Sereal

theorem Data.child {h : Heap} {v w : Val} (hd : Data h v) (hc : Child h v w) : Data h w := by
  have : ∀ u, Reach h w u → Reach h v u := by
    intro u hu
    induction hu with
    | refl => exact .step .refl hc
    | step _ h2 ih => exact .step ih h2
  exact fun u hu => hd u (this u hu)

theorem DepthLe.mono {h : Heap} {n m : Nat} {v : Val} (hd : DepthLe h n v) (hm : n ≤ m) : DepthLe h m v := by
  induction hd generalizing m with
  | leaf hl => exact .leaf hl
  | node hn _ ih =>
    obtain ⟨k, rfl⟩ : ∃ k, m = k + 1 := ⟨m - 1, by omega⟩
    exact .node hn (fun w hw => ih w hw (by omega))

theorem IsLeaf.no_child {h : Heap} {v w : Val} (hl : IsLeaf v) (hc : Child h v w) : False := by
  cases hc <;> exact hl

theorem DepthLe.inside {h : Heap} {n : Nat} {v w : Val} (hd : DepthLe h n v) (hi : Inside h v w) :
    ∃ m, m < n ∧ DepthLe h m w := by
  have child : ∀ {n v w}, DepthLe h n v → Child h v w → ∃ m, m < n ∧ DepthLe h m w := by
    intro n v w hd hc
    cases hd with
    | leaf hl => exact (hl.no_child hc).elim
    | @node m _ _ ha => exact ⟨m, by omega, ha w hc⟩
  induction hi with
  | child hc => exact child hd hc
  | step _ hc ih =>
    obtain ⟨m, h1, h2⟩ := ih
    obtain ⟨k, h3, h4⟩ := child h2 hc
    exact ⟨k, by omega, h4⟩

theorem not_depthLe_self {h : Heap} {v : Val} (hi : Inside h v v) (n : Nat) : ¬ DepthLe h n v := by
  induction n using Nat.strongRecOn with
  | _ n ih =>
    intro hd
    obtain ⟨m, h1, h2⟩ := hd.inside hi
    exact ih m h1 h2

theorem Reach.cases_inside {h : Heap} {v w : Val} (hr : Reach h v w) : w = v ∨ Inside h v w := by
  induction hr with
  | refl => exact .inl rfl
  | step _ hc ih =>
    rcases ih with rfl | hi
    · exact .inr (.child hc)
    · exact .inr (.step hi hc)

/-- Cyclic data has no depth. -/
theorem Cyclic.not_depthLe {h : Heap} {v : Val} (hc : Cyclic h v) (n : Nat) : ¬ DepthLe h n v := by
  obtain ⟨w, hr, hi⟩ := hc
  intro hd
  rcases hr.cases_inside with rfl | hin
  · exact not_depthLe_self hi n hd
  · obtain ⟨m, _, h2⟩ := hd.inside hin
    exact not_depthLe_self hi m h2

/-! ### encode -/

/-- The action succeeds in every state. -/
def Always (x : E Unit) : Prop := ∀ s, ∃ s', x s = .ok ((), s')
/-- The action reports the recursion limit in every state. -/
def Refuses (x : E Unit) : Prop := ∀ s, x s = .error (.err .maxRecursion)

theorem Always.emit (w : Bytes) : Always (Sereal.emit w) := fun _ => ⟨_, rfl⟩

theorem Always.bind {x : E Unit} {f : Unit → E Unit} (hx : Always x) (hf : Always (f ())) :
    Always (x >>= f) := by
  intro s
  obtain ⟨s1, h1⟩ := hx s
  obtain ⟨s2, h2⟩ := hf s1
  refine ⟨s2, ?_⟩
  show E.bind x f s = _
  unfold E.bind
  rw [h1]
  exact h2

theorem Refuses.bind {x : E Unit} {f : Unit → E Unit} (hx : Refuses x) : Refuses (x >>= f) := by
  intro s
  show E.bind x f s = _
  unfold E.bind
  rw [hx s]

theorem Refuses.bind2 {x : E Unit} {f : Unit → E Unit} (hx : Always x) (hf : Refuses (f ())) :
    Refuses (x >>= f) := by
  intro s
  obtain ⟨s1, h1⟩ := hx s
  show E.bind x f s = _
  unfold E.bind
  rw [h1]
  exact hf s1

theorem Always.string (c : ECfg) (s : Bytes) (b : Bool) : Always (encodeString c s b) := by
  intro st
  unfold encodeString
  split
  · show ∃ s', E.bind E.get _ st = _
    unfold E.bind E.get
    dsimp only
    cases st.strTable s with
    | some o => exact ⟨_, rfl⟩
    | none => exact ⟨_, rfl⟩
  · exact ⟨_, rfl⟩

theorem Always.bytes (c : ECfg) (s : Bytes) (b : Bool) : Always (encodeBytes c s b) := by
  intro st
  unfold encodeBytes
  split
  · show ∃ s', E.bind E.get _ st = _
    unfold E.bind E.get
    dsimp only
    cases st.strTable s with
    | some o => exact ⟨_, rfl⟩
    | none => exact ⟨_, rfl⟩
  · exact ⟨_, rfl⟩

theorem elems_always {rec : Val → E Unit} {vs : List Val} (h : ∀ v ∈ vs, Always (rec v)) :
    Always (encodeElems rec vs) := by
  induction vs with
  | nil => exact fun s => ⟨s, rfl⟩
  | cons v vs ih =>
    exact .bind (h v (by simp)) (ih (fun w hw => h w (List.mem_cons_of_mem _ hw)))

theorem elems_refuses {rec : Val → E Unit} {vs : List Val} (h : ∀ v ∈ vs, Always (rec v) ∨ Refuses (rec v))
    (hr : ∃ v ∈ vs, Refuses (rec v)) : Refuses (encodeElems rec vs) := by
  induction vs with
  | nil => obtain ⟨v, hv, _⟩ := hr; cases hv
  | cons v vs ih =>
    rcases h v (by simp) with h1 | h1
    · obtain ⟨w, hw, h2⟩ := hr
      rcases List.mem_cons.1 hw with rfl | hw
      · exact .bind h2
      · exact .bind2 h1 (ih (fun w hw => h w (List.mem_cons_of_mem _ hw)) ⟨w, hw, h2⟩)
    · exact .bind h1

theorem pairs_always {key : Bytes → E Unit} {rec : Val → E Unit} {kvs : List (Bytes × Val)} {ks : List Bytes}
    (hk : ∀ k, Always (key k)) (h : ∀ k ∈ ks, Always (rec ((mapLookup k kvs).getD .nil))) :
    Always (encodePairs key rec kvs ks) := by
  induction ks with
  | nil => exact fun s => ⟨s, rfl⟩
  | cons k ks ih =>
    exact .bind (hk k) (.bind (h k (by simp)) (ih (fun w hw => h w (List.mem_cons_of_mem _ hw))))

theorem pairs_refuses {key : Bytes → E Unit} {rec : Val → E Unit} {kvs : List (Bytes × Val)} {ks : List Bytes}
    (hk : ∀ k, Always (key k))
    (h : ∀ k ∈ ks, Always (rec ((mapLookup k kvs).getD .nil)) ∨ Refuses (rec ((mapLookup k kvs).getD .nil)))
    (hr : ∃ k ∈ ks, Refuses (rec ((mapLookup k kvs).getD .nil))) : Refuses (encodePairs key rec kvs ks) := by
  induction ks with
  | nil => obtain ⟨v, hv, _⟩ := hr; cases hv
  | cons k ks ih =>
    refine .bind2 (hk k) ?_
    rcases h k (by simp) with h1 | h1
    · obtain ⟨w, hw, h2⟩ := hr
      rcases List.mem_cons.1 hw with rfl | hw
      · exact .bind h2
      · exact .bind2 h1 (ih (fun w hw => h w (List.mem_cons_of_mem _ hw)) ⟨w, hw, h2⟩)
    · exact .bind h1

theorem range_always {c : ECfg} {ks : List Bytes} {f : List Bytes → E Unit} (h : ∀ n, Always (f (c.ord n ks))) :
    Always (rangeKeys c ks >>= f) := fun s => h s.visits _

theorem range_refuses {c : ECfg} {ks : List Bytes} {f : List Bytes → E Unit} (h : ∀ n, Refuses (f (c.ord n ks))) :
    Refuses (rangeKeys c ks >>= f) := fun s => h s.visits _

theorem leaf_always (c : ECfg) (inp : Heap) (rec : Option (Val → Bool → Bool → E Unit)) {v : Val} (hv : IsLeaf v)
    (ik rn : Bool) : Always (encodeVal c inp rec v ik rn) := by
  cases v <;> first | exact hv.elim | skip
  case nil => exact .emit _
  case bool => exact .emit _
  case int => exact .emit _
  case uint => exact .emit _
  case f32 => exact .emit _
  case f64 => exact .emit _
  case str => exact .string _ _ _
  case bin => exact .bytes _ _ _

theorem node_none (c : ECfg) (inp : Heap) {v : Val} (hv : IsNode v) (ik rn : Bool) :
    Refuses (encodeVal c inp none v ik rn) := by
  cases v <;> first | exact hv.elim | skip
  case slice => exact fun _ => rfl
  case smap => exact fun _ => rfl

theorem node_always {c : ECfg} {inp : Heap} (hord : ∀ n ks, (c.ord n ks).Perm ks)
    {rec : Val → Bool → Bool → E Unit} {v : Val} (hv : IsNode v)
    (h : ∀ w, Child inp v w → Always (rec w false false)) (ik rn : Bool) :
    Always (encodeVal c inp (some rec) v ik rn) := by
  cases v <;> first | exact hv.elim | skip
  case slice p n =>
    have main : Always (encodeElems (fun v => rec v false false) (sliceVals inp p n)) := by
      refine elems_always (fun w hw => ?_)
      obtain ⟨i, hi, rfl⟩ := List.mem_map.1 hw
      exact h _ (.elem (List.mem_range.1 hi))
    show Always (encodeArr c _ _ rn)
    unfold encodeArr
    split
    · exact .bind (.emit _) (.bind (.emit _) main)
    · exact .bind (.emit _) main
  case smap m =>
    have main : Always (rangeKeys c ((inp.mapAt m).map (·.1)) >>=
        encodePairs (fun k => encodeString c k true) (fun v => rec v false false) (inp.mapAt m)) := by
      refine range_always (fun n => pairs_always (fun k => .string _ _ _) (fun k hk => ?_))
      have h1 := (hord n _).mem_iff.1 hk
      obtain ⟨w, hw⟩ := Option.isSome_iff_exists.1 ((mapLookup_isSome k (inp.mapAt m)).2 h1)
      rw [hw]
      exact h _ (.entry hw)
    show Always (encodeMp c _ _ rn true)
    unfold encodeMp
    split
    · exact .bind (.emit _) (.bind (.emit _) main)
    · exact .bind (.emit _) main

theorem node_refuses {c : ECfg} {inp : Heap} (hord : ∀ n ks, (c.ord n ks).Perm ks)
    {rec : Val → Bool → Bool → E Unit} {v : Val}
    (h : ∀ w, Child inp v w → Always (rec w false false) ∨ Refuses (rec w false false))
    (hr : ∃ w, Child inp v w ∧ Refuses (rec w false false)) (ik rn : Bool) :
    Refuses (encodeVal c inp (some rec) v ik rn) := by
  obtain ⟨w, hw, h2⟩ := hr
  cases hw with
  | @elem p n i hi =>
    have main : Refuses (encodeElems (fun v => rec v false false) (sliceVals inp p n)) := by
      refine elems_refuses (fun w hw => ?_) ⟨_, List.mem_map.2 ⟨i, List.mem_range.2 hi, rfl⟩, h2⟩
      obtain ⟨i, hi, rfl⟩ := List.mem_map.1 hw
      exact h _ (.elem (List.mem_range.1 hi))
    show Refuses (encodeArr c _ _ rn)
    unfold encodeArr
    split
    · exact .bind2 (.emit _) (.bind2 (.emit _) main)
    · exact .bind2 (.emit _) main
  | @entry m k v hv =>
    have main : Refuses (rangeKeys c ((inp.mapAt m).map (·.1)) >>=
        encodePairs (fun k => encodeString c k true) (fun v => rec v false false) (inp.mapAt m)) := by
      refine range_refuses (fun n => pairs_refuses (fun k => .string _ _ _) (fun k hk => ?_) ⟨k, ?_, ?_⟩)
      · have h1 := (hord n _).mem_iff.1 hk
        obtain ⟨w, hw⟩ := Option.isSome_iff_exists.1 ((mapLookup_isSome k (inp.mapAt m)).2 h1)
        rw [hw]
        exact h _ (.entry hw)
      · exact (hord n _).mem_iff.2 ((mapLookup_isSome k (inp.mapAt m)).1 (by rw [hv]; rfl))
      · rw [hv]; exact h2
    show Refuses (encodeMp c _ _ rn true)
    unfold encodeMp
    split
    · exact .bind2 (.emit _) (.bind2 (.emit _) main)
    · exact .bind2 (.emit _) main

/-- encode with d > 0 levels left: success for data of depth less than d, the recursion error otherwise. -/
theorem encode_data {c : ECfg} {inp : Heap} (hord : ∀ n ks, (c.ord n ks).Perm ks) (d : Nat) {v : Val}
    (hd : Data inp v) (ik rn : Bool) :
    (DepthLe inp d v → Always (encode c inp (d + 1) v ik rn)) ∧
    (¬ DepthLe inp d v → Refuses (encode c inp (d + 1) v ik rn)) := by
  induction d generalizing v ik rn with
  | zero =>
    constructor
    · intro h
      cases h with
      | leaf hl => exact leaf_always c inp none hl ik rn
    · intro h
      rcases hd v .refl with hl | hn
      · exact absurd (.leaf hl) h
      · exact node_none c inp hn ik rn
  | succ d ih =>
    constructor
    · intro h
      cases h with
      | leaf hl => exact leaf_always c inp _ hl ik rn
      | node hn ha => exact node_always hord hn (fun w hw => (ih (hd.child hw) false false).1 (ha w hw)) ik rn
    · intro h
      rcases hd v .refl with hl | hn
      · exact absurd (.leaf hl) h
      · refine node_refuses hord (fun w hw => ?_) ?_ ik rn
        · by_cases hw' : DepthLe inp d w
          · exact .inl ((ih (hd.child hw) false false).1 hw')
          · exact .inr ((ih (hd.child hw) false false).2 hw')
        · refine Classical.byContradiction (fun hno => h (.node hn (fun w hw => ?_)))
          refine Classical.byContradiction (fun hw' => hno ⟨w, hw, (ih (hd.child hw) false false).2 hw'⟩)

theorem remaining_pos (n : Int) : remainingRecursion n = (remainingRecursion n - 1) + 1 := by
  unfold remainingRecursion; split <;> omega

theorem encodeAfter_data {c : ECfg} {inp : Heap} (hord : ∀ n ks, (c.ord n ks).Perm ks) {v : Val}
    (hd : Data inp v) (pre : Bytes) :
    (DepthLe inp (remainingRecursion c.maxRecursionDepth - 1) v → ∃ w, encodeAfter c inp pre v = .ok w) ∧
    (¬ DepthLe inp (remainingRecursion c.maxRecursionDepth - 1) v →
      encodeAfter c inp pre v = .error (.err .maxRecursion)) := by
  obtain ⟨h1, h2⟩ := encode_data hord (remainingRecursion c.maxRecursionDepth - 1) hd false false
  rw [← remaining_pos] at h1 h2
  unfold encodeAfter
  constructor
  · intro h
    obtain ⟨s', hs⟩ := h1 h { buf := pre }
    rw [hs]
    exact ⟨_, rfl⟩
  · intro h
    rw [h2 h { buf := pre }]

end Sereal
