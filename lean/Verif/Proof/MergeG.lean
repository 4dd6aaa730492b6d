import Verif.Proof.MergeItem
import Verif.Spec.Movable
/-
`mergeItems` carries over items: what stands in the document as `t` stands in the merged document as `t`.
-/
namespace Sereal

/-- What `readString` makes of a string tag. -/
theorem readString_tag (b : UInt8) :
    match classify (b.toNat % 128) with
    | .short n => isShallowStringish (b &&& ~~~ trackFlag) = true ∧
        (n ≠ 0 → b &&& ~~~ trackFlag > typeSHORT_BINARY_0 ∧ ((b &&& ~~~ trackFlag) &&& 0x1f).toNat = n)
    | .binary | .strUtf8 => isShallowStringish (b &&& ~~~ trackFlag) = true ∧
        ¬ (b &&& ~~~ trackFlag > typeSHORT_BINARY_0)
    | _ => isShallowStringish (b &&& ~~~ trackFlag) = false := by
  have h : (match classify (b.toNat % 128) with
    | .short n => isShallowStringish (b &&& ~~~ trackFlag) &&
        (decide (n = 0) || (decide (b &&& ~~~ trackFlag > typeSHORT_BINARY_0) &&
          decide (((b &&& ~~~ trackFlag) &&& 0x1f).toNat = n)))
    | .binary | .strUtf8 => isShallowStringish (b &&& ~~~ trackFlag) &&
        ! decide (b &&& ~~~ trackFlag > typeSHORT_BINARY_0)
    | _ => ! isShallowStringish (b &&& ~~~ trackFlag)) = true := by
    revert b; apply u8_forall; set_option maxRecDepth 8000 in decide
  split at h
  · next n hc =>
    simp only [Bool.and_eq_true, Bool.or_eq_true, decide_eq_true_eq] at h
    exact ⟨h.1, fun hn => h.2.resolve_left hn⟩
  · next hc => simpa using h
  · next hc => simpa using h
  · simpa using h

/-- A string that `readString` reads is a literal without padding, and it reads it all. -/
theorem readString_ok {d : Dialect} (hd : Mergeable d) {D : Bytes} {i e off : Nat} {k str : Bytes}
    (h : readString (D.drop i) = .ok (off, str)) (hs : Strish d D false i k e) (hk : k ≠ []) :
    str = k ∧ e = i + (off + k.length) ∧ Lit d D i k e ∧ NotPad D i := by
  unfold readString at h
  have hlt := hs.lt
  obtain ⟨b, hb⟩ : ∃ b, D[i]? = some b := ⟨_, List.getElem?_eq_getElem (by omega)⟩
  have h0 : indexOf (D.drop i) 0 = .ok b := by
    unfold indexOf
    rw [List.getElem?_drop, Nat.add_zero, hb]
  rw [h0] at h
  change (if ¬ isShallowStringish (b &&& ~~~ trackFlag) = true then _ else _) = _ at h
  have ht := readString_tag b
  have hnp : b.toNat % 128 ≠ 0x3f := by
    intro hp
    rw [hp] at ht
    change isShallowStringish (b &&& ~~~ trackFlag) = false at ht
    rw [if_pos (by rw [ht]; simp)] at h
    cases h
  have hNP : NotPad D i := by
    intro q hq; rw [hb] at hq; cases hq; exact hnp
  have here : ∀ {k' b'}, TagAt D i k' b' → k' = i ∧ b' = b := fun h' => h'.unique (.here' hb hnp)
  have fin : ∀ (n : Nat) (ln : Int) (sz : Nat), (ln = n) → n = k.length → n ≤ maxSize →
      Span D (i + (sz + 1)) k e →
      (if ln < 0 ∨ ln > maxUint32 then Except.error (Exn.err (.msg "bad size for string"))
        else if sz + 1 + ln.toNat > (D.drop i).length then .error (.err (.msg "truncated document"))
        else .ok (sz + 1, ((D.drop i).drop (sz + 1)).take ln.toNat) : Res (Nat × Bytes)) = .ok (off, str) →
      str = k ∧ e = i + (off + k.length) := by
    rintro n ln sz rfl rfl hn hsp hf
    split at hf
    · cases hf
    · split at hf
      · cases hf
      · cases hf
        rw [Int.toNat_natCast, List.drop_drop]
        exact ⟨(List.prefix_iff_eq_take.1 hsp.1).symm, by have := hsp.2; omega⟩
  cases hs with
  | lit hl =>
    have hl' := hl
    cases hl with
    | @long k' b' n j _ _ ht' hc hv hn hsp hlen =>
      obtain ⟨rfl, rfl⟩ := here ht'
      have hj := hv.lt
      have ht2 : isShallowStringish (b' &&& ~~~ trackFlag) = true ∧ ¬ (b' &&& ~~~ trackFlag > typeSHORT_BINARY_0) := by
        rcases hc with hc | hc <;> rw [hc] at ht <;> exact ht
      rw [if_neg (by rw [ht2.1]; simp), if_neg ht2.2, List.drop_drop] at h
      have hvd := vint_small hd hv (by simp [maxSize] at hn; omega)
      rw [hvd] at h
      obtain ⟨h1, h2⟩ := fin n n (j - (k' + 1)) rfl hlen.symm hn
        (by rw [show k' + (j - (k' + 1) + 1) = j by omega]; exact hsp) h
      exact ⟨h1, h2, hl', hNP⟩
    | @short k' b' n _ _ ht' hc hsp hlen =>
      obtain ⟨rfl, rfl⟩ := here ht'
      rw [hc] at ht
      have hn0 : n ≠ 0 := by rintro rfl; exact hk (List.length_eq_zero_iff.1 hlen)
      obtain ⟨h2, h3⟩ := ht.2 hn0
      rw [if_neg (by rw [ht.1]; simp), if_pos h2] at h
      have hn32 : n ≤ maxSize := by
        have := UInt8.toNat_lt ((b' &&& ~~~ trackFlag) &&& 0x1f)
        simp [maxSize]; omega
      obtain ⟨h1, h2⟩ := fin n (((b' &&& ~~~ trackFlag) &&& 0x1f).toNat : Int) 0 (by rw [h3]) hlen.symm hn32 hsp h
      exact ⟨h1, h2, hl', hNP⟩
  | copy _ ht' hc =>
    obtain ⟨rfl, rfl⟩ := here ht'
    rw [hc] at ht
    rw [if_pos (by rw [ht]; simp)] at h
    cases h

/-- What a run is about. -/
structure MEnv where
  c : MCfg
  dbuf : Bytes
  slack : Bytes
  cap : Nat
  f : LState
  d : Dialect
  base : Nat
  y : UInt8

def MEnv.D (E : MEnv) : Bytes := E.y :: E.dbuf

structure MEnv.Ok (E : MEnv) : Prop where
  d : Mergeable E.d
  f : E.f.mbuf.length < 2 ^ 63
  c : E.c.dedupeStrings = false
  len : E.dbuf.length + 1 < 2 ^ 31

/-- From `s` the run goes on to `s1`, which is at `j` with the stack `st`. -/
structure Went (E : MEnv) (s s1 : LState) (j : Nat) (st : List Nat) : Prop where
  runs : Runs E.c E.dbuf E.slack E.cap s1 E.f
  at_ : s1.didx + 1 = j
  stack : s1.stack = st
  inv : MInv E.d E.base E.D s1
  pre : s.mbuf <+: s1.mbuf

/-- The item at `i` is at `p` in the merged document: the bytes REFN, ARRAY are kept. -/
structure Kept (D : Bytes) (i : Nat) (F : Bytes) (p : Nat) : Prop where
  refn : D[i]? = some 0x28 → F[p]? = some 0x28
  arr : D[i]? = some 0x2b → F[p]? = some 0x2b
  both : D[i]? = some 0x28 → D[i + 1]? = some 0x2b → F[p + 1]? = some 0x2b

/-- The body of the item with tag `b` at `i`, merged. -/
structure KeptBody (D : Bytes) (i : Nat) (b : UInt8) (F : Bytes) (p : Nat) (b' : UInt8) : Prop where
  tag : b = 0x28 ∨ b = 0x2b → b' = b
  next : b = 0x28 → D[i + 1]? = some 0x2b → F[p + 1]? = some 0x2b

/-- What it means that a job is carried over. -/
def Carried (E : MEnv) : Job → Nat → Out → Nat → Prop
  | .item, i, .tree t, j => Movable t → ∀ s top rest, Went E s s i (top :: rest) → Live top →
      dedupHere E.c top = false →
      ∃ s1, Went E s s1 j ((top - 1) :: rest) ∧ ∀ F, Agr E.base F s1.mbuf →
        (∀ T, ∃ T', G E.d F false .item s.mrgIdx T (.tree t) s1.mrgIdx T') ∧ Kept E.D i F s.mrgIdx
  | .body cl, i, .tree t, j => Movable t → ∀ s top rest b, Went E s s (s.didx + 1) (top :: rest) → Live top →
      dedupHere E.c top = false → s.didx + 2 = i → E.dbuf[s.didx]? = some b → b.toNat % 128 ≠ 0x3f →
      classify (b.toNat % 128) = cl →
      ∃ s1, Went E s s1 j ((top - 1) :: rest) ∧ ∀ F, Agr E.base F s1.mbuf →
        ∃ b', TagAt F s.mrgIdx s.mrgIdx b' ∧ KeptBody E.D (s.didx + 1) b F s.mrgIdx b' ∧
          ∀ T, ∃ T', G E.d F false (.body (classify (b'.toNat % 128))) (s.mrgIdx + 1) T (.tree t) s1.mrgIdx T'
  | .items n, i, .trees ts, j => (∀ t ∈ ts, Movable t) → ∀ s rest, Went E s s i (n :: rest) →
      ∃ s1, Went E s s1 j (0 :: rest) ∧ ∀ F, Agr E.base F s1.mbuf →
        ∀ T, ∃ T', G E.d F false (.items n) s.mrgIdx T (.trees ts) s1.mrgIdx T'
  | .pairs n, i, .pairs kvs, j => (∀ kv ∈ kvs, Movable kv.2) → ∀ s rest, Went E s s i ((2 * n + 2 ^ 31) :: rest) →
      ∃ s1, Went E s s1 j (2 ^ 31 :: rest) ∧ ∀ F, Agr E.base F s1.mbuf →
        ∀ T, ∃ T', G E.d F false (.pairs n) s.mrgIdx T (.pairs kvs) s1.mrgIdx T'
  | _, _, _, _ => True

section
variable {E : MEnv}

theorem Went.trans {s s1 s2 : LState} {i j : Nat} {st st' : List Nat} (h : Went E s s1 i st)
    (h' : Went E s1 s2 j st') : Went E s s2 j st' :=
  ⟨h'.runs, h'.at_, h'.stack, h'.inv, h.pre.trans h'.pre⟩

theorem Went.self {s s1 : LState} {i : Nat} {st : List Nat} (h : Went E s s1 i st) : Went E s1 s1 i st :=
  ⟨h.runs, h.at_, h.stack, h.inv, List.prefix_refl _⟩

/-- Completed containers on the stack do not matter. -/
theorem Went.restack {s s1 : LState} {i : Nat} {st st' : List Nat} (h : Went E s s1 i st)
    (hst : popZeros st = popZeros st') : Went E s { s1 with stack := st' } i st' :=
  ⟨h.runs.restack (by rw [h.stack]; exact hst), h.at_, rfl, ⟨h.inv.len, h.inv.str, h.inv.obj, h.inv.trk⟩, h.pre⟩

/-- The window of a copied item. -/
theorem Went.win {s s1 : LState} {i j e : Nat} {st : List Nat} (h : Went E s s i st)
    (hm : s1.mbuf = s.mbuf ++ (E.D.drop e).take (j - e)) (he : e ≤ j) (hj : j ≤ E.D.length) :
    s1.mrgIdx = s.mrgIdx + (j - e) ∧ ∀ F, Agr E.base F s1.mbuf → Win E.D e F s.mrgIdx j := by
  have hl := h.inv.len
  refine ⟨?_, fun F hF => ?_⟩
  · show s1.mbuf.length - 5 = s.mbuf.length - 5 + (j - e)
    rw [hm, List.length_append, List.length_take, List.length_drop, Nat.min_eq_left (by omega)]
    omega
  · rw [hm] at hF
    exact hF.win hl hj

/-- The conclusion for an item copied as it is. -/
theorem mleaf {s s1 : LState} {i j : Nat} {st st' : List Nat} {b : UInt8} {t : Tree}
    (hw : Went E s s i st) (hw1 : Went E s s1 j st')
    (hb : E.dbuf[s.didx]? = some b) (hp : b.toNat % 128 ≠ 0x3f)
    (hm : s1.mbuf = s.mbuf ++ (E.D.drop (s.didx + 1)).take (j - (s.didx + 1)))
    (he : s.didx + 1 < j) (hj : j ≤ E.D.length) (h28 : b ≠ 0x28)
    (hG : ∀ F, Win E.D (s.didx + 1) F s.mrgIdx j → ∀ T, ∃ T', G E.d F false (.body (classify (b.toNat % 128)))
      (s.mrgIdx + (s.didx + 2 - (s.didx + 1))) T (.tree t) (s.mrgIdx + (j - (s.didx + 1))) T') :
    ∃ s1, Went E s s1 j st' ∧ ∀ F, Agr E.base F s1.mbuf →
        ∃ b', TagAt F s.mrgIdx s.mrgIdx b' ∧ KeptBody E.D (s.didx + 1) b F s.mrgIdx b' ∧
          ∀ T, ∃ T', G E.d F false (.body (classify (b'.toNat % 128))) (s.mrgIdx + 1) T (.tree t) s1.mrgIdx T' := by
  obtain ⟨h1, h2⟩ := hw.win hm (by omega) hj
  refine ⟨s1, hw1, fun F hF => ?_⟩
  have w := h2 F hF
  have htag := w.tag (k := s.didx + 1) (b := b) (by simpa [MEnv.D] using hb) hp (Nat.le_refl _) he
  rw [Nat.sub_self, Nat.add_zero] at htag
  refine ⟨b, htag, ⟨fun _ => rfl, fun h => absurd h h28⟩, fun T => ?_⟩
  have := hG F w T
  rw [show s.didx + 2 - (s.didx + 1) = 1 by omega] at this
  rw [h1]
  exact this

/-- One round that copies an item that is no string. -/
theorem mround {s : LState} {i top : Nat} {rest : List Nat} {b : UInt8} (hw : Went E s s i (top :: rest))
    (hlive : Live top) (hb : E.dbuf[s.didx]? = some b)
    (hc : classify (b.toNat % 128) ≠ .other) :
    ∃ m, mergeC s E.dbuf E.slack (dedupHere E.c top) b (classify (b.toNat % 128)) = .ok m ∧
      Runs E.c E.dbuf E.slack E.cap (s.move E.cap top rest m) E.f := by
  obtain ⟨m, hm, hr⟩ := hw.runs.step hb hw.stack hlive.ne
  rw [mergeTag_eq _ _ _ _ _ hc] at hm
  exact ⟨m, hm, hr⟩

/-- ... with the bytes up to `j` copied, and possibly something pushed. -/
theorem mmoved {s : LState} {i top : Nat} {rest : List Nat} {b : UInt8} (hw : Went E s s i (top :: rest))
    (hlive : Live top) (hb : E.dbuf[s.didx]? = some b)
    (hc : classify (b.toNat % 128) ≠ .binary ∧ classify (b.toNat % 128) ≠ .strUtf8 ∧
      (∀ n, classify (b.toNat % 128) ≠ .short n) ∧ classify (b.toNat % 128) ≠ .copy)
    {out : Bytes} {adv j : Nat} {push : Option Nat}
    (hr : Runs E.c E.dbuf E.slack E.cap (s.move E.cap top rest (Moved.copy s out adv push)) E.f)
    (hj : s.didx + 1 + adv = j) :
    Went E s (s.move E.cap top rest (Moved.copy s out adv push)) j (push.toList ++ (top - 1) :: rest) ∧
    (s.move E.cap top rest (Moved.copy s out adv push)).mbuf = s.mbuf ++ out := by
  refine ⟨⟨hr, ?_, ?_, hw.inv.other hb (.inr hc) rfl rfl rfl, ?_⟩, rfl⟩
  · show s.didx + adv + 1 = j
    omega
  · show push.toList ++ (if false = true then top else (top + 2 ^ 32 - 1) % 2 ^ 32) :: rest = _
    rw [hlive.pred]
    rfl
  · exact List.prefix_append _ _

theorem take_one {x : Bytes} {i : Nat} {b : UInt8} (h : x[i]? = some b) : (x.drop i).take 1 = [b] := by
  obtain ⟨hlt, hb⟩ := List.getElem?_eq_some_iff.1 h
  rw [List.drop_eq_getElem_cons hlt, hb]
  rfl

theorem cutCap_in {x slack : Bytes} {lo hi : Nat} (h1 : lo ≤ hi) (h2 : hi ≤ x.length) :
    cutCap x slack lo hi = .ok ((x.drop lo).take (hi - lo)) := by
  unfold cutCap cut
  rw [if_pos (by rw [List.length_append]; omega), List.drop_append_of_le_length (by omega),
    List.take_append_of_le_length (by rw [List.length_drop]; omega)]

/-- An item of one byte. -/
theorem carried_one {s : LState} {i top : Nat} {rest : List Nat} {b : UInt8} {t : Tree} {cl : TagC}
    (hw : Went E s s i (top :: rest)) (hlive : Live top) (hb : E.dbuf[s.didx]? = some b)
    (hp : b.toNat % 128 ≠ 0x3f) (hcl : classify (b.toNat % 128) = cl) (h28 : b ≠ 0x28)
    (hc : cl ≠ .binary ∧ cl ≠ .strUtf8 ∧ (∀ n, cl ≠ .short n) ∧ cl ≠ .copy) (ho : cl ≠ .other)
    (hm : mergeC s E.dbuf E.slack (dedupHere E.c top) b cl = .ok (Moved.copy s [b] 1))
    (hG : ∀ F p T, G E.d F false (.body cl) p T (.tree t) p T) :
    ∃ s1, Went E s s1 (s.didx + 2) ((top - 1) :: rest) ∧ ∀ F, Agr E.base F s1.mbuf →
        ∃ b', TagAt F s.mrgIdx s.mrgIdx b' ∧ KeptBody E.D (s.didx + 1) b F s.mrgIdx b' ∧
          ∀ T, ∃ T', G E.d F false (.body (classify (b'.toNat % 128))) (s.mrgIdx + 1) T (.tree t) s1.mrgIdx T' := by
  subst hcl
  obtain ⟨m, hm', hr⟩ := mround hw hlive hb ho
  rw [hm] at hm'
  cases hm'
  obtain ⟨h1, h2⟩ := mmoved hw hlive hb hc hr rfl
  have hlt := (List.getElem?_eq_some_iff.1 hb).1
  refine mleaf hw h1 hb hp ?_ (by omega) (by simp [MEnv.D]; omega) h28 (fun F w T => ⟨T, ?_⟩)
  · rw [h2, show s.didx + 1 + 1 - (s.didx + 1) = 1 by omega, take_one (b := b) (by simpa [MEnv.D] using hb)]
  · exact hG F _ T

/-- A number or the like, copied as it is. -/
theorem carried_num {s : LState} {i j top : Nat} {rest : List Nat} {b : UInt8} {t : Tree} {cl : TagC}
    (hw : Went E s s i (top :: rest)) (hlive : Live top) (hb : E.dbuf[s.didx]? = some b)
    (hp : b.toNat % 128 ≠ 0x3f) (hcl : classify (b.toNat % 128) = cl) (h28 : b ≠ 0x28)
    (hc : cl ≠ .binary ∧ cl ≠ .strUtf8 ∧ (∀ n, cl ≠ .short n) ∧ cl ≠ .copy) (ho : cl ≠ .other)
    (hj : s.didx + 1 < j) (hj' : j ≤ E.D.length)
    (hm : mergeC s E.dbuf E.slack (dedupHere E.c top) b cl =
      .ok (Moved.copy s ((E.dbuf.drop s.didx).take (j - (s.didx + 1))) (j - (s.didx + 1))))
    (hG : ∀ F, Win E.D (s.didx + 1) F s.mrgIdx j → ∀ T, ∃ T', G E.d F false (.body cl)
      (s.mrgIdx + (s.didx + 2 - (s.didx + 1))) T (.tree t) (s.mrgIdx + (j - (s.didx + 1))) T') :
    ∃ s1, Went E s s1 j ((top - 1) :: rest) ∧ ∀ F, Agr E.base F s1.mbuf →
        ∃ b', TagAt F s.mrgIdx s.mrgIdx b' ∧ KeptBody E.D (s.didx + 1) b F s.mrgIdx b' ∧
          ∀ T, ∃ T', G E.d F false (.body (classify (b'.toNat % 128))) (s.mrgIdx + 1) T (.tree t) s1.mrgIdx T' := by
  subst hcl
  obtain ⟨m, hm', hr⟩ := mround hw hlive hb ho
  rw [hm] at hm'
  cases hm'
  obtain ⟨h1, h2⟩ := mmoved (j := j) hw hlive hb hc hr (by omega)
  exact mleaf hw h1 hb hp h2 hj hj' h28 hG

/-- A string value, copied as it is. -/
theorem carried_lit (hE : E.Ok) {s : LState} {i j top : Nat} {rest : List Nat} {b : UInt8} {t : Tree} {k : Bytes}
    (hw : Went E s s i (top :: rest)) (hlive : Live top) (hb : E.dbuf[s.didx]? = some b)
    (hdd : dedupHere E.c top = false)
    (hp : b.toNat % 128 ≠ 0x3f) (h28 : b ≠ 0x28) (hl : Lit E.d E.D (s.didx + 1) k j)
    (hG : ∀ F, Win E.D (s.didx + 1) F s.mrgIdx j → ∀ T, ∃ T', G E.d F false (.body (classify (b.toNat % 128)))
      (s.mrgIdx + (s.didx + 2 - (s.didx + 1))) T (.tree t) (s.mrgIdx + (j - (s.didx + 1))) T') :
    ∃ s1, Went E s s1 j ((top - 1) :: rest) ∧ ∀ F, Agr E.base F s1.mbuf →
        ∃ b', TagAt F s.mrgIdx s.mrgIdx b' ∧ KeptBody E.D (s.didx + 1) b F s.mrgIdx b' ∧
          ∀ T, ∃ T', G E.d F false (.body (classify (b'.toNat % 128))) (s.mrgIdx + 1) T (.tree t) s1.mrgIdx T' := by
  have hnp : NotPad E.D (s.didx + 1) := by
    intro q hq
    have hq' : E.dbuf[s.didx]? = some q := by simpa [MEnv.D] using hq
    rw [hb] at hq'
    cases hq'
    exact hp
  obtain ⟨s1, h1, h2, h3, h4, h5⟩ := lit_step hE.d hl hnp hw.stack hlive hw.inv hw.runs
  have hlt := hl.lt
  rcases h5 with ⟨saved, h5, -⟩ | h5
  · rw [hdd] at h5; cases h5
  · exact mleaf hw ⟨h1, h2, h3, h4, by rw [h5]; exact List.prefix_append _ _⟩ hb hp h5 hlt.1 hlt.2 h28 hG

/-- A container: its head is copied, its contents follow. -/
theorem carried_box {s : LState} {i k j top n n' : Nat} {rest : List Nat} {b : UInt8} {t : Tree} {cl : TagC}
    (hw : Went E s s i (top :: rest)) (hlive : Live top) (hb : E.dbuf[s.didx]? = some b)
    (hp : b.toNat % 128 ≠ 0x3f) (hcl : classify (b.toNat % 128) = cl) (h28 : b ≠ 0x28)
    (hc : cl ≠ .binary ∧ cl ≠ .strUtf8 ∧ (∀ n, cl ≠ .short n) ∧ cl ≠ .copy) (ho : cl ≠ .other)
    (hk : s.didx + 1 < k) (hk' : k ≤ E.D.length)
    (hm : mergeC s E.dbuf E.slack (dedupHere E.c top) b cl =
      .ok (Moved.copy s ((E.dbuf.drop s.didx).take (k - (s.didx + 1))) (k - (s.didx + 1)) (some n)))
    {R : Bytes → LState → LState → Prop}
    (hin : ∀ s', Went E s' s' k (n :: (top - 1) :: rest) → ∃ s1, Went E s' s1 j (n' :: (top - 1) :: rest) ∧
      ∀ F, Agr E.base F s1.mbuf → R F s' s1)
    (hn' : n' % 2 ^ 31 = 0)
    (hG : ∀ F s1 s2, Win E.D (s.didx + 1) F s.mrgIdx k → s1.mrgIdx = s.mrgIdx + (k - (s.didx + 1)) →
      R F s1 s2 → ∀ T, ∃ T', G E.d F false (.body cl)
      (s.mrgIdx + (s.didx + 2 - (s.didx + 1))) T (.tree t) s2.mrgIdx T') :
    ∃ s1, Went E s s1 j ((top - 1) :: rest) ∧ ∀ F, Agr E.base F s1.mbuf →
        ∃ b', TagAt F s.mrgIdx s.mrgIdx b' ∧ KeptBody E.D (s.didx + 1) b F s.mrgIdx b' ∧
          ∀ T, ∃ T', G E.d F false (.body (classify (b'.toNat % 128))) (s.mrgIdx + 1) T (.tree t) s1.mrgIdx T' := by
  subst hcl
  obtain ⟨m, hm', hr⟩ := mround hw hlive hb ho
  rw [hm] at hm'
  cases hm'
  obtain ⟨h1, h2⟩ := mmoved (j := k) hw hlive hb hc hr (by omega)
  obtain ⟨w1, w2⟩ := hw.win h2 (by omega) hk'
  generalize s.move E.cap top rest _ = s' at h1 h2 w1 w2 hr
  obtain ⟨s1, h3, h4⟩ := hin s' h1.self
  refine ⟨_, (h1.trans h3).restack (st' := (top - 1) :: rest) (by rw [popZeros, if_pos hn']), fun F hF => ?_⟩
  have w := w2 F (hF.mono h3.pre)
  have htag := w.tag (k := s.didx + 1) (b := b) (by simpa [MEnv.D] using hb) hp (Nat.le_refl _) hk
  rw [Nat.sub_self, Nat.add_zero] at htag
  refine ⟨b, htag, ⟨fun _ => rfl, fun h => absurd h h28⟩, fun T => ?_⟩
  have := hG F s' s1 w w1 (h4 F hF) T
  rw [show s.didx + 2 - (s.didx + 1) = 1 by omega] at this
  exact this

/-- REFN and WEAKEN. -/
theorem carried_wrap {s : LState} {i j top : Nat} {rest : List Nat} {b : UInt8} {t t' : Tree} {cl : TagC}
    (hw : Went E s s i (top :: rest)) (hlive : Live top) (hb : E.dbuf[s.didx]? = some b)
    (hp : b.toNat % 128 ≠ 0x3f) (hcl : classify (b.toNat % 128) = cl)
    (hdd : dedupHere E.c top = false) (hc : cl = .refn ∨ cl = .weaken)
    (hin : Carried E .item (s.didx + 2) (.tree t) j) (hpl : Movable t)
    (hG : ∀ F p T j T', G E.d F false .item p T (.tree t) j T' → G E.d F false (.body cl) p T (.tree t') j T') :
    ∃ s1, Went E s s1 j ((top - 1) :: rest) ∧ ∀ F, Agr E.base F s1.mbuf →
        ∃ b', TagAt F s.mrgIdx s.mrgIdx b' ∧ KeptBody E.D (s.didx + 1) b F s.mrgIdx b' ∧
          ∀ T, ∃ T', G E.d F false (.body (classify (b'.toNat % 128))) (s.mrgIdx + 1) T (.tree t') s1.mrgIdx T' := by
  subst hcl
  obtain ⟨m, hm, hr⟩ := mround hw hlive hb (by rcases hc with hc | hc <;> rw [hc] <;> simp)
  have hm' : m = Moved.copy s [b] 1 none true := by
    rcases hc with hc | hc <;> rw [hc] at hm <;> simp only [mergeC] at hm <;> cases hm <;> rfl
  clear hm
  subst hm'
  have hlt := (List.getElem?_eq_some_iff.1 hb).1
  have h1 : Went E s (s.move E.cap top rest (Moved.copy s [b] 1 none true)) (s.didx + 2) (top :: rest) :=
    ⟨hr, rfl, rfl, hw.inv.other hb (.inr (by rcases hc with hc | hc <;> rw [hc] <;> simp)) rfl rfl rfl,
      List.prefix_append _ _⟩
  obtain ⟨w1, w2⟩ := hw.win (s1 := s.move E.cap top rest (Moved.copy s [b] 1 none true)) (e := s.didx + 1)
    (j := s.didx + 2) (by
      rw [show s.didx + 2 - (s.didx + 1) = 1 by omega, take_one (b := b) (by simpa [MEnv.D] using hb)]; rfl)
    (by omega) (by simp [MEnv.D]; omega)
  generalize s.move E.cap top rest _ = s' at h1 w1 w2 hr
  obtain ⟨s1, h3, h4⟩ := hin hpl s' top rest h1.self hlive hdd
  refine ⟨s1, h1.trans h3, fun F hF => ?_⟩
  have w := w2 F (hF.mono h3.pre)
  have htag := w.tag (k := s.didx + 1) (b := b) (by simpa [MEnv.D] using hb) hp (Nat.le_refl _) (by omega)
  rw [Nat.sub_self, Nat.add_zero] at htag
  obtain ⟨h5, h6⟩ := h4 F hF
  rw [show s.mrgIdx + (s.didx + 2 - (s.didx + 1)) = s.mrgIdx + 1 by omega] at w1
  rw [w1] at h5 h6
  refine ⟨b, htag, ⟨fun _ => rfl, fun _ h => h6.arr h⟩, fun T => ?_⟩
  obtain ⟨T', h7⟩ := h5 T
  exact ⟨T', hG _ _ _ _ _ h7⟩

/-- The tags with a class name, and with the offset of one. -/
def clsTag (frz : Bool) : TagC := if frz then .freeze else .object
def clsTagV (frz : Bool) : TagC := if frz then .freezev else .objectv

/-- A class name stands after the tag `b'`, or its offset does. -/
def NameAt (d : Dialect) (frz : Bool) (F : Bytes) (p : Nat) (b' : UInt8) (c : Bytes) (j : Nat) : Prop :=
  (classify (b'.toNat % 128) = clsTag frz ∧ Strish d F false (p + 1) c j) ∨
  (classify (b'.toNat % 128) = clsTagV frz ∧ ∃ o e, Vint d F (p + 1) o j ∧ o < 2 ^ 63 ∧ NotPad F o ∧
    Strish d F false o c e)

theorem ne_28 {b : UInt8} {frz : Bool} (h : classify (b.toNat % 128) = clsTag frz ∨
    classify (b.toNat % 128) = clsTagV frz) : b ≠ 0x28 ∧ b ≠ 0x2b := by
  constructor <;> rintro rfl <;> cases frz <;> rcases h with h | h <;> cases h

/-- OBJECT, OBJECT_FREEZE: the class name is copied, or the offset of an earlier copy takes its place. -/
theorem class_step (hE : E.Ok) {s : LState} {i j top : Nat} {rest : List Nat} {b : UInt8} {k : Bytes} {frz : Bool}
    (hw : Went E s s i (top :: rest)) (hlive : Live top) (hb : E.dbuf[s.didx]? = some b)
    (hp : b.toNat % 128 ≠ 0x3f) (hcl : classify (b.toNat % 128) = clsTag frz)
    (hs : Strish E.d E.D false (s.didx + 2) k j) (hk : k ≠ []) :
    ∃ s1, Went E s s1 j (1 :: (top - 1) :: rest) ∧ ∀ F, Agr E.base F s1.mbuf →
      ∃ b', TagAt F s.mrgIdx s.mrgIdx b' ∧ NameAt E.d frz F s.mrgIdx b' k s1.mrgIdx := by
  obtain ⟨m, hm, hr⟩ := mround hw hlive hb (by rw [hcl]; cases frz <;> simp [clsTag])
  have hm' : mergeObject s E.dbuf (if frz then typeOBJECT_FREEZE else typeOBJECT) = .ok m := by
    rw [hcl] at hm; cases frz <;> exact hm
  clear hm
  unfold mergeObject at hm'
  cases hrs : readString (E.dbuf.drop (s.didx + 1)) with
  | error e => rw [hrs] at hm'; cases hm'
  | ok r =>
    obtain ⟨off, str⟩ := r
    rw [hrs] at hm'
    obtain ⟨rfl, hj, hl, hnp⟩ := readString_ok hE.d (D := E.D) (i := s.didx + 2) hrs hs hk
    have hlt := hl.lt
    have hll := hw.inv.len
    have hlen := hw.runs.len
    have hf := hE.f
    have hD : E.D[s.didx + 1]? = some b := by simpa [MEnv.D] using hb
    have notstr : ∀ {k e}, Strish E.d E.D false (s.didx + 1) k e → False := fun h =>
      not_strish hD hp (by rw [hcl]; cases frz <;> simp [clsTag]) (by rw [hcl]; cases frz <;> simp [clsTag])
        (by rw [hcl]; cases frz <;> simp [clsTag]) (by rw [hcl]; cases frz <;> simp [clsTag]) h
    change (match mapLookup str s.objTable with
      | some saved => _
      | none => _) = _ at hm'
    cases hsv : mapLookup str s.objTable with
    | some saved =>
      rw [hsv] at hm'
      have hlit := hw.inv.obj _ _ hsv
      cases hm'
      refine ⟨_, ⟨hr, ?_, ?_, hw.inv.move rfl ?_ ?_ ?_, List.prefix_append _ _⟩, fun F hF => ?_⟩
      · show s.didx + (off + str.length + 1) + 1 = j
        omega
      · show [1] ++ (if false = true then top else (top + 2 ^ 32 - 1) % 2 ^ 32) :: rest = _
        rw [hlive.pred]
        rfl
      · exact fun k o hk => (hw.inv.str k o hk).mono (List.prefix_append _ _)
      · exact fun k o hk => (hw.inv.obj k o hk).mono (List.prefix_append _ _)
      · exact fun _ => ⟨fun k e h => (notstr (.lit h)).elim, fun k e h => (notstr h).elim⟩
      · have ho := hlit.1
        obtain ⟨⟨e, h3, -⟩, h5⟩ := hlit.2 F (hF.mono (List.prefix_append _ _))
        obtain ⟨g1, g2⟩ := Span.head (hF.span (m := s.mbuf) (w := tagVarint _ saved) hll)
        refine ⟨_, .here' g1 (by cases frz <;> decide), .inr ⟨by cases frz <;> decide, saved, e, ?_, by omega, h5,
          .lit h3⟩⟩
        have := Vint.of_span' hE.d g2 (by omega)
        show Vint E.d F _ saved ((s.mbuf ++ tagVarint _ saved).length - 5)
        rw [List.length_append, show ∀ x, s.mbuf.length + x - 5 = s.mbuf.length - 5 + x by intro x; omega]
        exact this
    | none =>
      rw [hsv] at hm'
      cases hm'
      have hslice : (E.dbuf.drop s.didx).take (off + str.length + 1) =
          [b] ++ (E.D.drop (s.didx + 2)).take (j - (s.didx + 2)) := by
        obtain ⟨hl', hb'⟩ := List.getElem?_eq_some_iff.1 hb
        rw [List.drop_eq_getElem_cons hl', hb', List.take_succ_cons]
        show _ = b :: (E.dbuf.drop (s.didx + 1)).take (j - (s.didx + 2))
        congr 2
        omega
      have hmb : s.mbuf ++ (E.dbuf.drop s.didx).take (off + str.length + 1) =
          (s.mbuf ++ [b]) ++ (E.D.drop (s.didx + 2)).take (j - (s.didx + 2)) := by
        rw [hslice, List.append_assoc]
      have hl1 : (s.mbuf ++ [b]).length = s.mbuf.length + 1 := by simp
      have lit := LitAt.copied (base := E.base) hl hnp (m := s.mbuf ++ [b]) (by omega)
      rw [← hmb, hl1] at lit
      rw [show s.mbuf.length + 1 - 5 = s.mrgIdx + 1 by simp [LState.mrgIdx, mergeBodyOffset]; omega] at lit
      refine ⟨_, ⟨hr, ?_, ?_, hw.inv.move rfl ?_ ?_ ?_, List.prefix_append _ _⟩, fun F hF => ?_⟩
      · show s.didx + (off + str.length + 1) + 1 = j
        omega
      · show [1] ++ (if false = true then top else (top + 2 ^ 32 - 1) % 2 ^ 32) :: rest = _
        rw [hlive.pred]
        rfl
      · exact fun k o hk => (hw.inv.str k o hk).mono (List.prefix_append _ _)
      · intro k o hk
        change mapLookup k ((str, s.mrgIdx + 1) :: s.objTable) = some o at hk
        rw [mapLookup] at hk
        split at hk
        · next e => subst e; cases hk; exact lit
        · exact (hw.inv.obj k o hk).mono (List.prefix_append _ _)
      · exact fun _ => ⟨fun k e h => (notstr (.lit h)).elim, fun k e h => (notstr h).elim⟩
      · have hF' : Agr E.base F ((s.mbuf ++ [b]) ++ (E.D.drop (s.didx + 2)).take (j - (s.didx + 2))) := by
          rw [← hmb]; exact hF
        obtain ⟨g1, -⟩ := Span.head (hF'.mono (List.prefix_append _ _) |>.span (m := s.mbuf) hll)
        refine ⟨b, .here' g1 hp, .inl ⟨hcl, .lit ?_⟩⟩
        obtain ⟨g3, -⟩ := (hF'.win (by omega) hlt.2).lit hl hnp
        rw [hl1, show s.mbuf.length + 1 - 5 = s.mrgIdx + 1 by simp [LState.mrgIdx, mergeBodyOffset]; omega] at g3
        show Lit E.d F _ _ ((s.mbuf ++ (E.dbuf.drop s.didx).take (off + str.length + 1)).length - 5)
        rw [hmb, List.length_append, hl1, List.length_take, List.length_drop, Nat.min_eq_left (by omega),
          show ∀ x, s.mbuf.length + 1 + x - 5 = s.mbuf.length - 5 + 1 + x by intro x; omega]
        exact g3

/-- OBJECTV, OBJECTV_FREEZE. -/
theorem classv_step (hE : E.Ok) {s : LState} {i j o x top : Nat} {rest : List Nat} {b : UInt8} {k : Bytes} {frz : Bool}
    (hw : Went E s s i (top :: rest)) (hlive : Live top) (hb : E.dbuf[s.didx]? = some b)
    (hp : b.toNat % 128 ≠ 0x3f) (hcl : classify (b.toNat % 128) = clsTagV frz)
    (hv : Vint E.d E.D (s.didx + 2) o j) (ho : o < 2 ^ 63 ∧ (E.d.strictCopy = true → NotPad E.D o))
    (hs : Strish E.d E.D false o k x) :
    ∃ s1, Went E s s1 j (1 :: (top - 1) :: rest) ∧ ∀ F, Agr E.base F s1.mbuf →
      ∃ b', TagAt F s.mrgIdx s.mrgIdx b' ∧ NameAt E.d frz F s.mrgIdx b' k s1.mrgIdx := by
  obtain ⟨m, hm, hr⟩ := mround hw hlive hb (by rw [hcl]; cases frz <;> simp [clsTagV])
  have hm' : mergeOffset s E.dbuf b (if frz then typeOBJECTV_FREEZE else typeOBJECTV) = .ok m := by
    rw [hcl] at hm; cases frz <;> exact hm
  clear hm
  have hj := hv.lt
  obtain ⟨target, htg, rfl⟩ := mergeOffset_ok hE.d hm' hv ho.1 (by cases frz <;> decide) (by cases frz <;> decide)
  have hpush : (if (if frz then typeOBJECTV_FREEZE else typeOBJECTV) = typeOBJECTV ∨
      (if frz then typeOBJECTV_FREEZE else typeOBJECTV) = typeOBJECTV_FREEZE then some 1 else none) = some 1 := by
    cases frz <;> decide
  rw [hpush] at hr
  have hstr := (hw.inv.trk o target htg (ho.2 hE.d.strict)).2 k x hs
  obtain ⟨h1, h2⟩ := mmoved (j := j) hw hlive hb (by
    rw [hcl]; cases frz <;> simp [clsTagV]) hr (by omega)
  refine ⟨_, h1, fun F hF => ?_⟩
  rw [h2] at hF
  have hll := hw.inv.len
  have hlen := hw.runs.len
  have hf := hE.f
  have hto := hstr.1
  obtain ⟨⟨e, h3⟩, h5⟩ := hstr.2 F (hF.mono (List.prefix_append _ _))
  obtain ⟨g1, g2⟩ := Span.head (hF.span (m := s.mbuf) (w := tagVarint b target) hll)
  refine ⟨_, .here' g1 hp, .inr ⟨hcl, target, e, ?_, by omega, h5, h3⟩⟩
  have := Vint.of_span' hE.d g2 (by omega)
  unfold LState.mrgIdx
  rw [h2, List.length_append]
  show Vint E.d F _ target (s.mbuf.length + _ - 5)
  rw [show ∀ x, s.mbuf.length + x - 5 = s.mbuf.length - 5 + x by intro x; omega]
  exact this

/-- The object behind the class name. -/
theorem carried_obj {s s1 : LState} {j j' top : Nat} {rest : List Nat} {b : UInt8} {k : Bytes} {frz : Bool} {t : Tree}
    (hcl : classify (b.toNat % 128) = clsTag frz ∨ classify (b.toNat % 128) = clsTagV frz)
    (hE : E.Ok)
    (hw : Went E s s1 j (1 :: (top - 1) :: rest))
    (hc : ∀ F, Agr E.base F s1.mbuf →
      ∃ b', TagAt F s.mrgIdx s.mrgIdx b' ∧ NameAt E.d frz F s.mrgIdx b' k s1.mrgIdx)
    (hin : Carried E .item j (.tree t) j') (hpl : Movable t)
    (hfz : frz = true → Span E.D j [0x28, 0x2b] (j + 2)) :
    ∃ s1, Went E s s1 j' ((top - 1) :: rest) ∧ ∀ F, Agr E.base F s1.mbuf →
        ∃ b', TagAt F s.mrgIdx s.mrgIdx b' ∧ KeptBody E.D (s.didx + 1) b F s.mrgIdx b' ∧
          ∀ T, ∃ T', G E.d F false (.body (classify (b'.toNat % 128))) (s.mrgIdx + 1) T
            (.tree (if frz then .frz k t else .obj k t)) s1.mrgIdx T' := by
  obtain ⟨s2, h3, h4⟩ := hin hpl s1 1 _ hw.self ⟨by decide, by decide⟩ (by simp [dedupHere, hE.c])
  refine ⟨_, (hw.trans h3).restack (st' := (top - 1) :: rest) (by rw [popZeros, if_pos (by decide)]), fun F hF => ?_⟩
  obtain ⟨b', htag, hat⟩ := hc F (hF.mono h3.pre)
  obtain ⟨h5, h6⟩ := h4 F hF
  refine ⟨b', htag, ⟨fun h => absurd h (by have := ne_28 hcl; rintro (h | h) <;> simp [h] at this),
    fun h => absurd h (ne_28 hcl).1⟩, fun T => ?_⟩
  obtain ⟨T', h7⟩ := h5 T
  cases frz with
  | false =>
    refine ⟨T', ?_⟩
    rcases hat with ⟨e1, e2⟩ | ⟨e1, o, e, e2, e3, e4, e5⟩ <;> rw [e1]
    · exact .object e2 h7
    · exact .objectv e2 ⟨e3, fun _ => e4⟩ e5 h7
  | true =>
    have hsp : Span F s1.mrgIdx [0x28, 0x2b] (s1.mrgIdx + 2) := by
      obtain ⟨a1, a2⟩ := Span.head (hfz rfl)
      obtain ⟨a2, -⟩ := Span.head a2
      have b1 := h6.refn a1
      have b2 := h6.both a1 a2
      obtain ⟨l1, c1⟩ := List.getElem?_eq_some_iff.1 b1
      obtain ⟨l2, c2⟩ := List.getElem?_eq_some_iff.1 b2
      refine ⟨?_, rfl⟩
      rw [List.drop_eq_getElem_cons l1, List.drop_eq_getElem_cons l2, c1, c2]
      exact ⟨_, rfl⟩
    refine ⟨T', ?_⟩
    rcases hat with ⟨e1, e2⟩ | ⟨e1, o, e, e2, e3, e4, e5⟩ <;> rw [e1]
    · exact .freeze e2 hsp h7
    · exact .freezev e2 ⟨e3, fun _ => e4⟩ e5 hsp h7

/-- REGEXP. -/
theorem mergeRegexp_ok (hE : E.Ok) {s : LState} {m : Moved} {p q : Bytes} {j j' : Nat}
    (h : mergeRegexp s E.dbuf = .ok m) (h1 : Strish E.d E.D false (s.didx + 2) p j)
    (h2 : Strish E.d E.D false j q j') (hp : p ≠ []) (hq : q ≠ []) :
    m = Moved.copy s ((E.dbuf.drop s.didx).take (j' - (s.didx + 1))) (j' - (s.didx + 1)) ∧
    Lit E.d E.D (s.didx + 2) p j ∧ NotPad E.D (s.didx + 2) ∧ Lit E.d E.D j q j' ∧ NotPad E.D j := by
  unfold mergeRegexp at h
  cases hr : readString (E.dbuf.drop (s.didx + 1)) with
  | error e => rw [hr] at h; cases h
  | ok r =>
    obtain ⟨off, str⟩ := r
    obtain ⟨rfl, hj, hl, hnp⟩ := readString_ok hE.d (D := E.D) (i := s.didx + 2) hr h1 hp
    rw [hr] at h
    change (do
      let (offset, str') ← readString (E.dbuf.drop (s.didx + (off + str.length + 1)))
      _) = _ at h
    cases hr2 : readString (E.dbuf.drop (s.didx + (off + str.length + 1))) with
    | error e => rw [hr2] at h; cases h
    | ok r2 =>
      obtain ⟨off2, str2⟩ := r2
      have hr3 : readString (E.D.drop j) = .ok (off2, str2) := by
        rw [hj, ← hr2, show s.didx + 2 + (off + str.length) = s.didx + (off + str.length + 1) + 1 by omega]
        rfl
      obtain ⟨rfl, hj', hl', hnp'⟩ := readString_ok hE.d (D := E.D) (i := j) hr3 h2 hq
      rw [hr2] at h
      cases h
      refine ⟨?_, hl, hnp, hl', hnp'⟩
      rw [show off + str.length + 1 + (off2 + str2.length) = j' - (s.didx + 1) by omega]

theorem mergeContainer_eq {s : LState} {dbuf : Bytes} {tag : UInt8} {n sz : Nat}
    (h : varintdecode (dbuf.drop (s.didx + 1)) = .ok ((n : Int), sz)) :
    mergeContainer s dbuf tag =
      if tag = typeHASH then .ok (Moved.copy s ((dbuf.drop s.didx).take (sz + 1)) (sz + 1) (some (hashEntry n)))
      else .ok (Moved.copy s ((dbuf.drop s.didx).take (sz + 1)) (sz + 1) (some (n % 2 ^ 32))) := by
  unfold mergeContainer
  rw [h]
  simp only [bind, Except.bind]
  rw [if_neg (by omega)]
  simp only [Int.toNat_natCast]

/-- What stands in the document stands in the merged document. -/
theorem G.carried (hE : E.Ok) {cd : Bool} {job : Job} {i : Nat} {T : Seen} {out : Out} {j : Nat} {T' : Seen}
    (h : G E.d E.D cd job i T out j T') (hcd : cd = false) : Carried E job i out j := by
  have hlenD : E.D.length < 2 ^ 31 := by
    have := hE.len
    simpa [MEnv.D] using this
  induction h with
  | @plain cd i k b T t j T' ht hb _ ih =>
    intro hpl s top rest hw hlive hdd
    have hat := hw.at_
    obtain ⟨s1, ps, hr1, hi1, hst1, hI1, hm1, hps, heq⟩ := pads hlive.ne (k - i) i s
      (by have := ht.le; omega) ht hat hw.stack hw.inv hw.runs
    have hb' : E.dbuf[s1.didx]? = some b := by
      have := ht.2.2.1; rw [← hi1] at this; simpa [MEnv.D] using this
    have hw1 : Went E s s1 k (top :: rest) := ⟨hr1, hi1, hst1, hI1, by rw [hm1]; exact List.prefix_append _ _⟩
    subst hi1
    obtain ⟨s2, h2, h3⟩ := ih hcd hpl s1 top rest b hw1.self hlive hdd rfl hb' ht.2.2.2
      (by rw [Nat.mod_eq_of_lt hb])
    refine ⟨s2, hw1.trans h2, fun F hF => ?_⟩
    obtain ⟨b', h4, h5, h6⟩ := h3 F hF
    have htag : TagAt F s.mrgIdx s1.mrgIdx b' := by
      have := hF.tag (m := s.mbuf) (ps := ps) (b := b') (hm1 ▸ h2.pre) hw.inv.len hps (by rw [← hm1]; exact h4)
      rw [← hm1] at this
      exact this
    refine ⟨fun T => ?_, ?_⟩
    · by_cases hlt : b'.toNat < 128
      · obtain ⟨T', h7⟩ := h6 T
        rw [Nat.mod_eq_of_lt hlt] at h7
        exact ⟨T', .plain htag hlt h7⟩
      · obtain ⟨T', h7⟩ := h6 (T.put s1.mrgIdx none)
        have := b'.toNat_lt
        rw [show b'.toNat % 128 = b'.toNat - 128 by omega] at h7
        exact ⟨_, .tracked htag (by omega) h7⟩
    · have npad : ∀ x : UInt8, E.D[i]? = some x → x.toNat % 128 ≠ 0x3f → i = s1.didx + 1 ∧ x = b := by
        intro x hx hxp
        obtain ⟨e1, e2⟩ := ht.unique (.here' hx hxp)
        exact ⟨e1.symm, e2.symm⟩
      have same : i = s1.didx + 1 → s1 = s := heq
      constructor
      · intro hx
        obtain ⟨e1, rfl⟩ := npad _ hx (by decide)
        have := same e1; subst this
        rw [← h5.tag (.inl rfl)]
        exact h4.2.2.1
      · intro hx
        obtain ⟨e1, rfl⟩ := npad _ hx (by decide)
        have := same e1; subst this
        rw [← h5.tag (.inr rfl)]
        exact h4.2.2.1
      · intro hx hx2
        obtain ⟨e1, rfl⟩ := npad _ hx (by decide)
        have := same e1; subst this
        subst e1
        exact h5.next rfl hx2
  | @tracked cd i k b T t j T' ht hb _ ih =>
    intro hpl s top rest hw hlive hdd
    have hat := hw.at_
    obtain ⟨s1, ps, hr1, hi1, hst1, hI1, hm1, hps, heq⟩ := pads hlive.ne (k - i) i s
      (by have := ht.le; omega) ht hat hw.stack hw.inv hw.runs
    have hb' : E.dbuf[s1.didx]? = some b := by
      have := ht.2.2.1; rw [← hi1] at this; simpa [MEnv.D] using this
    have hw1 : Went E s s1 k (top :: rest) := ⟨hr1, hi1, hst1, hI1, by rw [hm1]; exact List.prefix_append _ _⟩
    subst hi1
    have hb256 := b.toNat_lt
    obtain ⟨s2, h2, h3⟩ := ih hcd hpl s1 top rest b hw1.self hlive hdd rfl hb' ht.2.2.2
      (by rw [show b.toNat % 128 = b.toNat - 128 by omega])
    refine ⟨s2, hw1.trans h2, fun F hF => ?_⟩
    obtain ⟨b', h4, h5, h6⟩ := h3 F hF
    have htag : TagAt F s.mrgIdx s1.mrgIdx b' := by
      have := hF.tag (m := s.mbuf) (ps := ps) (b := b') (hm1 ▸ h2.pre) hw.inv.len hps (by rw [← hm1]; exact h4)
      rw [← hm1] at this
      exact this
    refine ⟨fun T => ?_, ?_⟩
    · by_cases hlt : b'.toNat < 128
      · obtain ⟨T', h7⟩ := h6 T
        rw [Nat.mod_eq_of_lt hlt] at h7
        exact ⟨T', .plain htag hlt h7⟩
      · obtain ⟨T', h7⟩ := h6 (T.put s1.mrgIdx none)
        have := b'.toNat_lt
        rw [show b'.toNat % 128 = b'.toNat - 128 by omega] at h7
        exact ⟨_, .tracked htag (by omega) h7⟩
    · have npad : ∀ x : UInt8, x.toNat < 128 → E.D[i]? = some x → x.toNat % 128 ≠ 0x3f → False := by
        intro x hlt hx hxp
        obtain ⟨e1, rfl⟩ := ht.unique (.here' hx hxp)
        omega
      exact ⟨fun hx => (npad _ (by decide) hx (by decide)).elim, fun hx => (npad _ (by decide) hx (by decide)).elim,
        fun hx => (npad _ (by decide) hx (by decide)).elim⟩
  | @int cd i T n =>
    intro hpl s top rest b hw hlive hdd hi hb hp hcl
    subst hi
    exact carried_one hw hlive hb hp hcl (by rintro rfl; cases hcl) (by simp) (by simp) rfl
      (fun F p T => .int)
  | undef =>
    intro hpl s top rest b hw hlive hdd hi hb hp hcl
    subst hi
    exact carried_one hw hlive hb hp hcl (by rintro rfl; cases hcl) (by simp) (by simp) rfl
      (fun F p T => .undef)
  | cundef =>
    intro hpl s top rest b hw hlive hdd hi hb hp hcl
    subst hi
    exact carried_one hw hlive hb hp hcl (by rintro rfl; cases hcl) (by simp) (by simp) rfl
      (fun F p T => .cundef)
  | true_ =>
    intro hpl s top rest b hw hlive hdd hi hb hp hcl
    subst hi
    exact carried_one hw hlive hb hp hcl (by rintro rfl; cases hcl) (by simp) (by simp) rfl
      (fun F p T => .true_)
  | false_ =>
    intro hpl s top rest b hw hlive hdd hi hb hp hcl
    subst hi
    exact carried_one hw hlive hb hp hcl (by rintro rfl; cases hcl) (by simp) (by simp) rfl
      (fun F p T => .false_)
  | @varint cd i T n j hv =>
    intro hpl s top rest b hw hlive hdd hi hb hp hcl
    subst hi
    have hj := hv.lt
    have hlt := (List.getElem?_eq_some_iff.1 hb).1
    have hj2 := hv.le_length
    have hvd := (vint_dec hE.d hv).1
    refine carried_num hw hlive hb hp hcl (by rintro rfl; cases hcl) (by simp) (by simp) (by omega) hj2 ?_ ?_
    · have : varintdecode (E.dbuf.drop (s.didx + 1)) = .ok (sgn n, j - (s.didx + 2)) := hvd
      simp only [mergeC]
      rw [this]
      show Except.ok _ = _
      rw [show j - (s.didx + 2) + 1 = j - (s.didx + 1) by omega]
    · exact fun F w T => ⟨T, .varint (w.vint hv (by omega) (Nat.le_refl _))⟩
  | @zigzag cd i T n j z hv hz =>
    intro hpl s top rest b hw hlive hdd hi hb hp hcl
    subst hi
    have hj := hv.lt
    have hlt := (List.getElem?_eq_some_iff.1 hb).1
    have hj2 := hv.le_length
    have hvd := (vint_dec hE.d hv).1
    refine carried_num hw hlive hb hp hcl (by rintro rfl; cases hcl) (by simp) (by simp) (by omega) hj2 ?_ ?_
    · have : varintdecode (E.dbuf.drop (s.didx + 1)) = .ok (sgn n, j - (s.didx + 2)) := hvd
      simp only [mergeC]
      rw [this]
      show Except.ok _ = _
      rw [show j - (s.didx + 2) + 1 = j - (s.didx + 1) by omega]
    · exact fun F w T => ⟨T, .zigzag (w.vint hv (by omega) (Nat.le_refl _)) hz⟩
  | @float cd i T x j hs hl =>
    intro hpl s top rest b hw hlive hdd hi hb hp hcl
    subst hi
    have hlt := (List.getElem?_eq_some_iff.1 hb).1
    have hj := hs.2
    have hj2 := hs.le_length (by simp [MEnv.D]; omega)
    have hj3 : j ≤ E.dbuf.length + 1 := by simpa [MEnv.D] using hj2
    refine carried_num hw hlive hb hp hcl (by rintro rfl; cases hcl) (by simp) (by simp) (by omega) hj2 ?_ ?_
    · simp only [mergeC]
      rw [cutCap_in (by omega) (by omega)]
      show Except.ok _ = _
      rw [show s.didx + 5 - s.didx = j - (s.didx + 1) by omega, show 5 = j - (s.didx + 1) by omega]
    · exact fun F w T => ⟨T, .float (w.span hs (by omega) (Nat.le_refl _)) hl⟩
  | @double cd i T x j hs hl =>
    intro hpl s top rest b hw hlive hdd hi hb hp hcl
    subst hi
    have hlt := (List.getElem?_eq_some_iff.1 hb).1
    have hj := hs.2
    have hj2 := hs.le_length (by simp [MEnv.D]; omega)
    have hj3 : j ≤ E.dbuf.length + 1 := by simpa [MEnv.D] using hj2
    refine carried_num hw hlive hb hp hcl (by rintro rfl; cases hcl) (by simp) (by simp) (by omega) hj2 ?_ ?_
    · simp only [mergeC]
      rw [cutCap_in (by omega) (by omega)]
      show Except.ok _ = _
      rw [show s.didx + 9 - s.didx = j - (s.didx + 1) by omega, show 9 = j - (s.didx + 1) by omega]
    · exact fun F w T => ⟨T, .double (w.span hs (by omega) (Nat.le_refl _)) hl⟩
  | @binary cd i T n j x j' hv hn hs hl =>
    intro hpl s top rest b hw hlive hdd hi hb hp hcl
    subst hi
    have hj := hv.lt
    have hD : E.D[s.didx + 1]? = some b := by simpa [MEnv.D] using hb
    refine carried_lit hE hw hlive hb hdd hp (by rintro rfl; cases hcl)
      (.long (.here' hD hp) (.inl hcl) hv hn hs hl) (fun F w T => ⟨T, ?_⟩)
    rw [hcl]
    exact .binary (w.vint hv (by omega) hs.le) hn (w.span hs (by omega) (Nat.le_refl _)) hl
  | @strUtf8 cd i T n j x j' hv hn hs hl =>
    intro hpl s top rest b hw hlive hdd hi hb hp hcl
    subst hi
    have hj := hv.lt
    have hD : E.D[s.didx + 1]? = some b := by simpa [MEnv.D] using hb
    refine carried_lit hE hw hlive hb hdd hp (by rintro rfl; cases hcl)
      (.long (.here' hD hp) (.inr hcl) hv hn hs hl) (fun F w T => ⟨T, ?_⟩)
    rw [hcl]
    exact .strUtf8 (w.vint hv (by omega) hs.le) hn (w.span hs (by omega) (Nat.le_refl _)) hl
  | @short cd i T n x j hs hl =>
    intro hpl s top rest b hw hlive hdd hi hb hp hcl
    subst hi
    have hD : E.D[s.didx + 1]? = some b := by simpa [MEnv.D] using hb
    refine carried_lit hE hw hlive hb hdd hp (by rintro rfl; cases hcl)
      (.short (.here' hD hp) hcl hs hl) (fun F w T => ⟨T, ?_⟩)
    rw [hcl]
    exact .short (w.span hs (by omega) (Nat.le_refl _)) hl
  | @hash cd i T n j kvs j' T' hv hn hin ih =>
    intro hpl s top rest b hw hlive hdd hi hb hp hcl
    subst hi
    have hj := hv.lt
    have hlt := (List.getElem?_eq_some_iff.1 hb).1
    have hj2 := hv.le_length
    have hneed := hin.lt
    have hneed2 := hneed.2 hj2
    have hneed1 := hneed.1
    simp only [Job.need] at hneed1
    have hvd : varintdecode (E.dbuf.drop (s.didx + 1)) = .ok ((n : Int), j - (s.didx + 2)) :=
      vint_small hE.d hv (by omega)
    have hpl' : ∀ kv ∈ kvs, Movable kv.2 := by cases hpl; assumption
    refine carried_box (k := j) (n := 2 * n + 2 ^ 31) (n' := 2 ^ 31) hw hlive hb hp hcl (by rintro rfl; cases hcl)
      (by simp) (by simp) (by omega) hj2 ?_ (fun s' hw' => ih hcd hpl' s' _ hw') (by decide) ?_
    · show mergeContainer s E.dbuf typeHASH = _
      rw [mergeContainer_eq hvd, if_pos rfl, hashEntry,
        show j - (s.didx + 2) + 1 = j - (s.didx + 1) by omega, Nat.mod_eq_of_lt (by omega), Nat.mul_comm n 2]
    · intro F s1 s2 w e hR T
      rw [e] at hR
      obtain ⟨T', h⟩ := hR T
      exact ⟨T', .hash (w.vint hv (by omega) (Nat.le_refl _)) hn h⟩
  | @hashref cd i T n kvs j T' hin ih =>
    intro hpl s top rest b hw hlive hdd hi hb hp hcl
    subst hi
    have hlt := (List.getElem?_eq_some_iff.1 hb).1
    have hj2 : s.didx + 2 ≤ E.D.length := by simp [MEnv.D]; omega
    have hneed := hin.lt
    have hneed2 := hneed.2 hj2
    have hneed1 := hneed.1
    simp only [Job.need] at hneed1
    have hpl' : ∀ kv ∈ kvs, Movable kv.2 := by cases hpl with | ref h => cases h; assumption
    refine carried_box (k := s.didx + 2) (n := 2 * n + 2 ^ 31) (n' := 2 ^ 31) hw hlive hb hp hcl
      (by rintro rfl; cases hcl)
      (by simp) (by simp) (by omega) hj2 ?_ (fun s' hw' => ih hcd hpl' s' _ hw') (by decide) ?_
    · simp only [mergeC]
      rw [hashEntry, show s.didx + 2 - (s.didx + 1) = 1 by omega, take_one hb, Nat.mod_eq_of_lt (by omega),
        Nat.mul_comm n 2]
    · intro F s1 s2 w e hR T
      rw [e] at hR
      obtain ⟨T', h⟩ := hR T
      exact ⟨T', .hashref h⟩
  | @array cd i T n j ts j' T' hv hn hin ih =>
    intro hpl s top rest b hw hlive hdd hi hb hp hcl
    subst hi
    have hj := hv.lt
    have hlt := (List.getElem?_eq_some_iff.1 hb).1
    have hj2 := hv.le_length
    have hneed := hin.lt
    have hneed2 := hneed.2 hj2
    have hneed1 := hneed.1
    simp only [Job.need] at hneed1
    have hvd : varintdecode (E.dbuf.drop (s.didx + 1)) = .ok ((n : Int), j - (s.didx + 2)) :=
      vint_small hE.d hv (by omega)
    have hpl' : ∀ t ∈ ts, Movable t := by cases hpl; assumption
    refine carried_box (k := j) (n := n) (n' := 0) hw hlive hb hp hcl (by rintro rfl; cases hcl)
      (by simp) (by simp) (by omega) hj2 ?_ (fun s' hw' => ih hcd hpl' s' _ hw') (by decide) ?_
    · show mergeContainer s E.dbuf typeARRAY = _
      rw [mergeContainer_eq hvd, if_neg (by decide),
        show j - (s.didx + 2) + 1 = j - (s.didx + 1) by omega, Nat.mod_eq_of_lt (by omega)]
    · intro F s1 s2 w e hR T
      rw [e] at hR
      obtain ⟨T', h⟩ := hR T
      exact ⟨T', .array (w.vint hv (by omega) (Nat.le_refl _)) hn h⟩
  | @arrayref cd i T n ts j T' hin ih =>
    intro hpl s top rest b hw hlive hdd hi hb hp hcl
    subst hi
    have hlt := (List.getElem?_eq_some_iff.1 hb).1
    have hj2 : s.didx + 2 ≤ E.D.length := by simp [MEnv.D]; omega
    have hpl' : ∀ t ∈ ts, Movable t := by cases hpl with | ref h => cases h; assumption
    refine carried_box (k := s.didx + 2) (n := n) (n' := 0) hw hlive hb hp hcl
      (by rintro rfl; cases hcl)
      (by simp) (by simp) (by omega) hj2 ?_ (fun s' hw' => ih hcd hpl' s' _ hw') (by decide) ?_
    · simp only [mergeC]
      rw [show s.didx + 2 - (s.didx + 1) = 1 by omega, take_one hb]
    · intro F s1 s2 w e hR T
      rw [e] at hR
      obtain ⟨T', h⟩ := hR T
      exact ⟨T', .arrayref h⟩
  | @refn cd i T t j T' hin ih =>
    intro hpl s top rest b hw hlive hdd hi hb hp hcl
    subst hi
    exact carried_wrap hw hlive hb hp hcl hdd (.inl rfl) (ih hcd) (by cases hpl; assumption)
      (fun F p T j T' h => .refn h)
  | @weaken cd i T t j T' hin ih =>
    intro hpl s top rest b hw hlive hdd hi hb hp hcl
    subst hi
    exact carried_wrap hw hlive hb hp hcl hdd (.inr rfl) (ih hcd) (by cases hpl; assumption)
      (fun F p T j T' h => .weaken h)
  | refp => intro hpl; cases hpl
  | refpOpen => intro hpl; cases hpl
  | alias => intro hpl; cases hpl
  | aliasOpen => intro hpl; cases hpl
  | copy h => rw [hE.d.strict] at h; cases h
  | @regexp cd i T p j m j' h1 h2 =>
    subst hcd
    intro hpl s top rest b hw hlive hdd hi hb hp hcl
    subst hi
    obtain ⟨hpp, hmm⟩ : p ≠ [] ∧ m ≠ [] := by cases hpl; exact ⟨by assumption, by assumption⟩
    obtain ⟨mv, hmv, hr⟩ := mround hw hlive hb (by rw [hcl]; simp)
    rw [hcl] at hmv
    obtain ⟨rfl, l1, n1, l2, n2⟩ := mergeRegexp_ok hE hmv h1 h2 hpp hmm
    have lt1 := l1.lt
    have lt2 := l2.lt
    refine carried_num hw hlive hb hp hcl (by rintro rfl; cases hcl) (by simp) (by simp) (by omega) lt2.2 hmv ?_
    intro F w T
    have w1 : Win E.D (s.didx + 2) F (s.mrgIdx + (s.didx + 2 - (s.didx + 1))) j :=
      ⟨lt1.2, fun x hx hx' => by
        have := w.get x (by omega) (by omega)
        rw [← this]; congr 1; omega⟩
    have w2 : Win E.D j F (s.mrgIdx + (j - (s.didx + 1))) j' :=
      ⟨lt2.2, fun x hx hx' => by
        have := w.get x (by omega) (by omega)
        rw [← this]; congr 1; omega⟩
    have g1 := (w1.lit l1 n1).1
    have g2 := (w2.lit l2 n2).1
    rw [show s.mrgIdx + (s.didx + 2 - (s.didx + 1)) + (j - (s.didx + 2)) = s.mrgIdx + (j - (s.didx + 1)) by omega] at g1
    rw [show s.mrgIdx + (j - (s.didx + 1)) + (j' - j) = s.mrgIdx + (j' - (s.didx + 1)) by omega] at g2
    exact ⟨T, .regexp (.lit g1) (.lit g2)⟩
  | @object cd i T k j t j' T' hs hin ih =>
    subst hcd
    intro hpl s top rest b hw hlive hdd hi hb hp hcl
    subst hi
    obtain ⟨hk, hpl'⟩ : k ≠ [] ∧ Movable t := by cases hpl; exact ⟨by assumption, by assumption⟩
    obtain ⟨s1, h1, h2⟩ := class_step (frz := false) hE hw hlive hb hp hcl hs hk
    exact carried_obj (frz := false) (.inl hcl) hE h1 h2 (ih rfl) hpl' (by simp)
  | @freeze cd i T k j t j' T' hs hsp hin ih =>
    subst hcd
    intro hpl s top rest b hw hlive hdd hi hb hp hcl
    subst hi
    obtain ⟨hk, hpl'⟩ : k ≠ [] ∧ Movable t := by cases hpl; exact ⟨by assumption, by assumption⟩
    obtain ⟨s1, h1, h2⟩ := class_step (frz := true) hE hw hlive hb hp hcl hs hk
    exact carried_obj (frz := true) (.inl hcl) hE h1 h2 (ih rfl) hpl' (fun _ => hsp)
  | @objectv cd i T o j k x t j' T' hv ho hs hin ih =>
    subst hcd
    intro hpl s top rest b hw hlive hdd hi hb hp hcl
    subst hi
    obtain ⟨hk, hpl'⟩ : k ≠ [] ∧ Movable t := by cases hpl; exact ⟨by assumption, by assumption⟩
    obtain ⟨s1, h1, h2⟩ := classv_step (frz := false) hE hw hlive hb hp hcl hv ho hs
    exact carried_obj (frz := false) (.inr hcl) hE h1 h2 (ih rfl) hpl' (by simp)
  | @freezev cd i T o j k x t j' T' hv ho hs hsp hin ih =>
    subst hcd
    intro hpl s top rest b hw hlive hdd hi hb hp hcl
    subst hi
    obtain ⟨hk, hpl'⟩ : k ≠ [] ∧ Movable t := by cases hpl; exact ⟨by assumption, by assumption⟩
    obtain ⟨s1, h1, h2⟩ := classv_step (frz := true) hE hw hlive hb hp hcl hv ho hs
    exact carried_obj (frz := true) (.inr hcl) hE h1 h2 (ih rfl) hpl' (fun _ => hsp)
  | itemsNil =>
    intro hpl s rest hw
    exact ⟨s, hw, fun F hF T => ⟨T, .itemsNil⟩⟩
  | @itemsCons cd n i T t j T' ts j' T'' h1 h2 ih1 ih2 =>
    intro hpl s rest hw
    have hi : i ≤ E.D.length := by
      cases h1 with
      | plain ht _ _ => have := ht.le; have := ht.lt; omega
      | tracked ht _ _ => have := ht.le; have := ht.lt; omega
    have hn1 := h1.lt
    have hn2 := h2.lt
    have := hn1.2 hi
    have := hn2.2 this
    simp only [Job.need] at hn1 hn2
    obtain ⟨s1, w1, g1⟩ := ih1 hcd (hpl t (by simp)) s (n + 1) rest hw ⟨by omega, by omega⟩ (by
      simp [dedupHere, hE.c]; omega)
    obtain ⟨s2, w2, g2⟩ := ih2 hcd (fun t ht => hpl t (by simp [ht])) s1 rest w1.self
    refine ⟨s2, w1.trans w2, fun F hF T => ?_⟩
    obtain ⟨T1, k1⟩ := (g1 F (hF.mono w2.pre)).1 T
    obtain ⟨T2, k2⟩ := g2 F hF T1
    exact ⟨T2, .itemsCons k1 k2⟩
  | pairsNil =>
    intro hpl s rest hw
    exact ⟨s, hw, fun F hF T => ⟨T, .pairsNil⟩⟩
  | @pairsCons cd n i T k x t j T' kvs j' T'' hs h1 h2 ih1 ih2 =>
    subst hcd
    intro hpl s rest hw
    have hsx := hs.lt
    have hn1 := h1.lt
    have hn2 := h2.lt
    have := hn1.2 (by omega)
    have := hn2.2 this
    simp only [Job.need] at hn1 hn2
    obtain ⟨s0, r0, a0, st0, i0, p0, g0⟩ := key_step hE.d hE.f hs hw.at_ hw.stack ⟨by omega, by omega⟩ hw.inv hw.runs
    rw [show 2 * (n + 1) + 2 ^ 31 - 1 = 2 * n + 1 + 2 ^ 31 by omega] at st0
    have w0 : Went E s s0 x ((2 * n + 1 + 2 ^ 31) :: rest) := ⟨r0, a0, st0, i0, p0⟩
    obtain ⟨s1, w1, g1⟩ := ih1 rfl (hpl (k, t) (by simp)) s0 _ rest w0.self ⟨by omega, by omega⟩ (by
      simp [dedupHere, hE.c]; omega)
    rw [show 2 * n + 1 + 2 ^ 31 - 1 = 2 * n + 2 ^ 31 by omega] at w1
    obtain ⟨s2, w2, g2⟩ := ih2 rfl (fun kv ht => hpl kv (by simp [ht])) s1 rest w1.self
    refine ⟨s2, w0.trans (w1.trans w2), fun F hF T => ?_⟩
    have k0 := g0 F (hF.mono (w1.trans w2).pre)
    obtain ⟨T1, k1⟩ := (g1 F (hF.mono w2.pre)).1 T
    obtain ⟨T2, k2⟩ := g2 F hF T1
    exact ⟨T2, .pairsCons k0 k1 k2⟩

end

end Sereal
