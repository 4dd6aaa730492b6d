import Verif.Proof.MergeSteps
import Verif.Props.C53
/-
C70: merged documents can be merged again.
-/
namespace Sereal

theorem steps_run {c : MCfg} {cs : Codecs} {calls : List MCall} {ns : List Nat} (hv : c.ver ≤ 3)
    (htop : c.topLevel ≠ .invalid) (hc : c.compression = none) (hh : Each (fun k n => Steps c cs k.doc n) calls ns) :
    ∃ s, appendAll c cs calls {} = some (ns, s) ∧
      (ns.sum ≤ maxSize → ∀ slack, ∃ doc s', mergeFinish c cs slack s = (.ok doc, s') ∧
        (c.version ≠ 1 → doc.length < 2 ^ 31 → PortableDoc cs doc ∧ FrontDoc cs doc)) := by
  have hh' : Each (fun k n => ∃ body off, mergeBody cs k.doc = .ok body ∧ Merges c body n off) calls ns := by
    induction hh with
    | nil => exact .nil
    | cons h _ ih =>
      obtain ⟨body, off, y, vs, h1, h2, h3⟩ := h
      exact .cons ⟨body, off, h1, h2⟩ ih
  obtain ⟨s0, s', h1, h2, h3, h4, h5⟩ := accepted_all hv htop hh'
  have fin : ns.sum ≤ maxSize → ∀ slack, ∃ doc s'', mergeFinish c cs slack s' = (.ok doc, s'') ∧
      (c.version ≠ 1 → doc.length < 2 ^ 31 → PortableDoc cs doc ∧ FrontDoc cs doc) := by
    intro hn slack
    obtain ⟨doc, s'', hfin⟩ := h4.finish hc (by simp only [maxSize] at hn; omega) cs slack
    refine ⟨doc, s'', hfin, fun hv1 hsz => ?_⟩
    rw [finish_raw_length h4.inited hc hfin] at hsz
    obtain ⟨vs, hr⟩ := (MRow.new h1).all hh h2 hsz
    have hp := mergeFinish_raw hr.inited hr.open_ hfin (fun b _ => by unfold mergeCompresses; rw [hc]; split <;> rfl)
    exact hr.doc hv1 (by rw [h5]; exact hn) hp (by rw [finish_raw_length h4.inited hc hfin]; exact hsz) cs
  cases calls with
  | nil =>
    cases hh
    cases h2
    refine ⟨{}, rfl, fun hn slack => ?_⟩
    rw [mergeFinish_init h1]
    exact fin hn slack
  | cons k ks => exact ⟨s', h3.resolve_right (by simp), fin⟩

/-- C70 for documents given as rows of tokens, also with KeepFlat and DedupeStrings: every `Append` succeeds, `Finish`
succeeds, and what it returns is such a document again. -/
theorem C70_tokens (c : MCfg) (cs : Codecs) (calls : List MCall) (hv : c.ver ≤ 3) (htop : c.topLevel ≠ .invalid)
    (hc : c.compression = none) (hdocs : ∀ k ∈ calls, PortableDoc cs k.doc)
    (hf : c.keepFlat = true → ∀ k ∈ calls, FrontDoc cs k.doc) :
    ∃ ns s, appendAll c cs calls {} = some (ns, s) ∧
      (ns.sum ≤ maxSize → ∀ slack, ∃ doc s', mergeFinish c cs slack s = (.ok doc, s') ∧
        (c.version ≠ 1 → doc.length < 2 ^ 31 → PortableDoc cs doc ∧ FrontDoc cs doc)) := by
  obtain ⟨ns, hh⟩ : ∃ ns, Each (fun k n => Steps c cs k.doc n) calls ns := by
    clear hc hv htop
    induction calls with
    | nil => exact ⟨[], .nil⟩
    | cons k ks ih =>
      obtain ⟨n, hn⟩ := (hdocs k (by simp)).steps (c := c) (fun h => hf h k (by simp))
      obtain ⟨ns, hns⟩ := ih (fun k hk => hdocs k (by simp [hk])) (fun h k hk => hf h k (by simp [hk]))
      exact ⟨n :: ns, .cons hn hns⟩
  exact ⟨ns, steps_run hv htop hc hh⟩

theorem Front.bare {body : Bytes} (h : Front body) : Bare body := by
  obtain ⟨b0, b1, rest, rfl, h1, h2, h3⟩ := h
  exact ⟨b0, b1, rest, rfl, by omega, fun h => by have := h3 (by omega); omega⟩

theorem Movable.top {top : TopLevel} {ts : List Tree} (h : ∀ t ∈ ts, Movable t) : Movable (topTree top ts) := by
  cases top
  · exact .arr h
  · exact .ref (.arr h)
  · exact .arr h

theorem Movable.flatten {top : TopLevel} {t : Tree} (hm : Movable t) : ∀ u ∈ flatten top t, Movable u := by
  intro u hu
  unfold Sereal.flatten at hu
  split at hu
  · cases hm with | ref hm => cases hm with | arr hm => exact hm u hu
  · cases hm with | arr hm => exact hm u hu
  · rw [List.mem_singleton.1 hu]; exact hm

theorem joined_eq (c : MCfg) (ts : List Tree) : joined c ts = (ts.map fun t => joined c [t]).flatten := by
  unfold joined
  cases c.keepFlat
  · exact (flatten_singles ts).symm
  · simp

theorem Movable.joined {c : MCfg} {ts : List Tree} (h : ∀ t ∈ ts, Movable t) : ∀ u ∈ joined c ts, Movable u := by
  intro u hu
  unfold Sereal.joined at hu
  split at hu
  · obtain ⟨us, h1, h2⟩ := List.mem_flatten.1 hu
    obtain ⟨t, h3, rfl⟩ := List.mem_map.1 h1
    exact (h t h3).flatten u h2
  · exact h u hu

/-- What a document contributes. -/
theorem DocHolds.joins {c : MCfg} {cs : Codecs} {b : Bytes} {t : Tree} (h : DocHolds cs b t)
    (hf : c.keepFlat = true → FrontDoc cs b) : Adds c cs b (joined c [t]) := by
  unfold joined
  cases hkf : c.keepFlat with
  | false => exact h.adds hkf
  | true =>
    obtain ⟨body, y, j, h1, h2, h3⟩ := h
    obtain ⟨body', g1, g2⟩ := hf hkf
    have := h1.mergeBody.symm.trans g1.mergeBody
    cases this
    have := DocHoldsBare.adds hkf (cs := cs) (b := b) (t := t) ⟨body, y, j, h1, h2, h3, g2.bare⟩
    simpa using this

theorem pairs_each {R : MCall → Tree → Prop} {ps : List (MCall × Tree)} (h : ∀ p ∈ ps, R p.1 p.2) :
    Each R (ps.map Prod.fst) (ps.map Prod.snd) := by
  induction ps with
  | nil => exact .nil
  | cons p ps ih => exact .cons (h p (by simp)) (ih fun p hp => h p (by simp [hp]))

/-- The data of the result of `Finish`. -/
theorem merged_holds {c : MCfg} {cs : Codecs} {ps : List (MCall × Tree)} {ns : List Nat} {s s' : MState}
    {slack doc : Bytes} (hm : PlainMerger c) (hf : c.keepFlat = true → ∀ p ∈ ps, FrontDoc cs p.1.doc)
    (hdocs : ∀ p ∈ ps, DocHolds cs p.1.doc p.2 ∧ Movable p.2)
    (happ : appendAll c cs (ps.map Prod.fst) {} = some (ns, s)) (hfin : mergeFinish c cs slack s = (.ok doc, s'))
    (hn : (joined c (ps.map Prod.snd)).length ≤ maxSize) (hsz : doc.length < 2 ^ 31) :
    DocHolds cs doc (topTree c.topLevel (joined c (ps.map Prod.snd))) ∧
      ∀ dcfg : DCfg, (∀ t ∈ joined c (ps.map Prod.snd), Supported dcfg.view t) →
        ∃ h v, unmarshal dcfg cs doc = .ok (h, v) ∧
          Shows dcfg.view h v (topTree c.topLevel (joined c (ps.map Prod.snd))) := by
  have hE : Each (fun k us => Adds c cs k.doc us ∧ ∀ t ∈ us, Movable t) (ps.map Prod.fst)
      ((ps.map Prod.snd).map fun t => joined c [t]) := by
    refine Each.singles (R := fun k t => DocHolds cs k.doc t ∧ Movable t ∧ (c.keepFlat = true → FrontDoc cs k.doc))
      (pairs_each fun p hp => ⟨(hdocs p hp).1, (hdocs p hp).2, fun h => hf h p hp⟩) _ ?_
    intro k t h
    exact ⟨h.1.joins h.2.2, Movable.joined (by simpa using h.2.1)⟩
  have := merged_doc hm.notOne hm.raw hm.verbatim hE happ hfin (by rw [← joined_eq]; exact hn) (by omega)
  rw [← joined_eq] at this
  obtain ⟨-, body, j, h1, h2, h3⟩ := this
  have hver : c.ver = 2 ∨ c.ver = 3 := (ver_magic hm.ver hm.notOne []).1
  have hbl : doc.length = (headBytes c.ver 0 [0] []).length + body.length := by rw [h1.eq_head]; simp
  have hhl := headBytes_length c.ver 0 [0] []
  exact ⟨⟨body, 0, j, HasBody.raw h1 hver cs, by simp at hhl; omega, h2⟩, h3⟩

/-- `Append` takes as many items as the document contributes. -/
theorem PortableDoc.counts {c : MCfg} {cs : Codecs} {b : Bytes} {t : Tree} (h : PortableDoc cs b)
    (hd : DocHolds cs b t) (hf : c.keepFlat = true → FrontDoc cs b) : Steps c cs b (joined c [t]).length := by
  obtain ⟨n, hs⟩ := h.steps hf
  obtain ⟨body, off, y, vs, h1, h2, h3⟩ := hs
  obtain ⟨body', y', n', off', T, T', j, g1, -, g2, g3⟩ := hd.joins hf
  rw [g1.mergeBody] at h1
  cases h1
  have he := h2.expects
  rw [g2] at he
  have : n' = n := by
    simp only [Except.ok.injEq, Prod.mk.injEq] at he
    omega
  rw [← g3.items_length, this]
  exact ⟨body, off, y, vs, g1.mergeBody, h2, h3⟩

theorem joined_length (c : MCfg) (ts : List Tree) :
    (ts.map fun t => (joined c [t]).length).sum = (joined c ts).length := by
  rw [joined_eq c ts, List.length_flatten, List.map_map]
  rfl

theorem pairs_run {c : MCfg} {cs : Codecs} {ps : List (MCall × Tree)} (hm : PlainMerger c)
    (hdocs : ∀ p ∈ ps, PortableDoc cs p.1.doc ∧ DocHolds cs p.1.doc p.2)
    (hf : c.keepFlat = true → ∀ p ∈ ps, FrontDoc cs p.1.doc)
    (hn : (joined c (ps.map Prod.snd)).length ≤ maxSize) :
    ∃ s, appendAll c cs (ps.map Prod.fst) {} = some (ps.map (fun p => (joined c [p.2]).length), s) ∧
      ∀ slack, ∃ doc s', mergeFinish c cs slack s = (.ok doc, s') ∧
        (doc.length < 2 ^ 31 → PortableDoc cs doc ∧ FrontDoc cs doc) := by
  have hh : Each (fun k n => Steps c cs k.doc n) (ps.map Prod.fst) (ps.map fun p => (joined c [p.2]).length) := by
    clear hn
    induction ps with
    | nil => exact .nil
    | cons p ps ih =>
      exact .cons ((hdocs p (by simp)).1.counts (hdocs p (by simp)).2 fun h => hf h p (by simp))
        (ih (fun p hp => hdocs p (by simp [hp])) fun h p hp => hf h p (by simp [hp]))
  obtain ⟨s, h1, h2⟩ := steps_run hm.ver hm.top hm.raw hh
  refine ⟨s, h1, fun slack => ?_⟩
  have hs : (ps.map fun p => (joined c [p.2]).length).sum ≤ maxSize := by
    have := joined_length c (ps.map Prod.snd)
    rw [List.map_map] at this
    change (ps.map fun p => (joined c [p.2]).length).sum = _ at this
    omega
  obtain ⟨doc, s', h3, h4⟩ := h2 hs slack
  exact ⟨doc, s', h3, h4 hm.notOne⟩

/-- Assembled documents are portable, and hold what one expects. -/
theorem Assembled.holds {cs : Codecs} {b : Bytes} {t : Tree} (h : Assembled cs b t) :
    PortableDoc cs b ∧ DocHolds cs b t ∧ Movable t := by
  induction h with
  | given h1 h2 h3 => exact ⟨h1, h2, h3⟩
  | @merged c ps ns s s' slack doc hm hf _ happ hfin hn hsz ih =>
    refine ⟨?_, (merged_holds hm hf (fun p hp => (ih p hp).2) happ hfin hn hsz).1,
      Movable.top (Movable.joined fun t ht => ?_)⟩
    · obtain ⟨s1, h1, h2⟩ := pairs_run hm (fun p hp => ⟨(ih p hp).1, (ih p hp).2.1⟩) hf hn
      rw [happ] at h1
      cases h1
      obtain ⟨doc', s2, h3, h4⟩ := h2 slack
      rw [hfin] at h3
      cases h3
      exact (h4 hsz).1
    · obtain ⟨p, hp, rfl⟩ := List.mem_map.1 ht
      exact (ih p hp).2.2

/-- C70 for documents that have been assembled, in any number of steps, from documents without references and
objects; for mergers that write uncompressed documents of version 2 or 3, without DedupeStrings (see
`C70_tokens`).  Every `Append` succeeds and returns the number of items the document contributes, and
`Finish` succeeds; its document can be merged again, and decoders show all items in order.  With KeepFlat, documents
must begin as in `Front`; merged documents do.  What is missing is false: see `C70_fails`. -/
theorem C70_partial (c : MCfg) (cs : Codecs) (ps : List (MCall × Tree)) (hm : PlainMerger c)
    (hdocs : ∀ p ∈ ps, Assembled cs p.1.doc p.2) (hf : c.keepFlat = true → ∀ p ∈ ps, FrontDoc cs p.1.doc)
    (hn : (joined c (ps.map Prod.snd)).length ≤ maxSize) (slack : Bytes) :
    ∃ s doc s', appendAll c cs (ps.map Prod.fst) {} = some (ps.map (fun p => (joined c [p.2]).length), s) ∧
      mergeFinish c cs slack s = (.ok doc, s') ∧
      (doc.length < 2 ^ 31 →
        Assembled cs doc (topTree c.topLevel (joined c (ps.map Prod.snd))) ∧ FrontDoc cs doc ∧
        ∀ dcfg : DCfg, (∀ t ∈ joined c (ps.map Prod.snd), Supported dcfg.view t) →
          ∃ h v, unmarshal dcfg cs doc = .ok (h, v) ∧
            Shows dcfg.view h v (topTree c.topLevel (joined c (ps.map Prod.snd)))) := by
  obtain ⟨s, h1, h2⟩ := pairs_run hm (fun p hp => ⟨(hdocs p hp).holds.1, (hdocs p hp).holds.2.1⟩) hf hn
  obtain ⟨doc, s', h3, h4⟩ := h2 slack
  exact ⟨s, doc, s', h1, h3, fun hsz => ⟨.merged hm hf hdocs h1 h3 hn hsz, (h4 hsz).2,
    (merged_holds hm hf (fun p hp => (hdocs p hp).holds.2) h1 h3 hn hsz).2⟩⟩

/-! ### Merging in steps is merging at once -/

theorem joined_top {c : MCfg} (hk : c.keepFlat = true) (ht : c.topLevel ≠ .invalid) (ts : List Tree) :
    joined c [topTree c.topLevel ts] = ts := by
  unfold joined
  rw [if_pos hk]
  cases h : c.topLevel with
  | invalid => exact absurd h ht
  | array => simp [topTree, flatten]
  | arrayRef => simp [topTree, flatten]

theorem joined_steps {c : MCfg} (hk : c.keepFlat = true) (ht : c.topLevel ≠ .invalid) (tss : List (List Tree)) :
    joined c (tss.map fun ts => topTree c.topLevel (joined c ts)) = joined c tss.flatten := by
  rw [joined_eq, List.map_map]
  induction tss with
  | nil => simp [joined]
  | cons ts tss ih =>
    rw [List.map_cons, List.flatten_cons, ih, List.flatten_cons]
    show joined c [topTree c.topLevel (joined c ts)] ++ _ = _
    rw [joined_top hk ht]
    unfold joined
    rw [if_pos hk, if_pos hk, if_pos hk, List.map_append, List.flatten_append]

/-- With KeepFlat, merging groups of documents, and then the results, gives the items of all documents in order: what
merging all documents at once gives (`C70_partial`). -/
theorem C70_steps (c : MCfg) (cs : Codecs) (gs : List (List (MCall × Tree) × MCall)) (hm : PlainMerger c)
    (hk : c.keepFlat = true)
    (hgroups : ∀ g ∈ gs, (∀ p ∈ g.1, Assembled cs p.1.doc p.2 ∧ FrontDoc cs p.1.doc) ∧ g.2.doc.length < 2 ^ 31 ∧
      ∃ ns s slack s', appendAll c cs (g.1.map Prod.fst) {} = some (ns, s) ∧
        mergeFinish c cs slack s = (.ok g.2.doc, s'))
    (hn : (joined c ((gs.map Prod.fst).flatten.map Prod.snd)).length ≤ maxSize) (slack : Bytes) :
    ∃ ns s doc s', appendAll c cs (gs.map Prod.snd) {} = some (ns, s) ∧ mergeFinish c cs slack s = (.ok doc, s') ∧
      (doc.length < 2 ^ 31 →
        Assembled cs doc (topTree c.topLevel (joined c ((gs.map Prod.fst).flatten.map Prod.snd)))) := by
  have hlen : ∀ g ∈ gs, (joined c (g.1.map Prod.snd)).length ≤
      (joined c ((gs.map Prod.fst).flatten.map Prod.snd)).length := by
    clear hgroups hn
    intro g hg
    have hj : ∀ as bs, joined c (as ++ bs) = joined c as ++ joined c bs := by
      intro as bs
      unfold joined
      rw [if_pos hk, if_pos hk, if_pos hk, List.map_append, List.flatten_append]
    induction gs with
    | nil => cases hg
    | cons g' gs ih =>
      rw [List.map_cons, List.flatten_cons, List.map_append, hj, List.length_append]
      rcases List.mem_cons.1 hg with rfl | hg
      · omega
      · have := ih hg; omega
  let ps : List (MCall × Tree) := gs.map fun g => (g.2, topTree c.topLevel (joined c (g.1.map Prod.snd)))
  have hp : ∀ p ∈ ps, Assembled cs p.1.doc p.2 ∧ FrontDoc cs p.1.doc := by
    intro p hp
    obtain ⟨g, hg, rfl⟩ := List.mem_map.1 hp
    obtain ⟨h1, h2, ns, s, sl, s', h3, h4⟩ := hgroups g hg
    have hl := hlen g hg
    refine ⟨.merged hm (fun _ p hp => (h1 p hp).2) (fun p hp => (h1 p hp).1) h3 h4 (by omega) h2, ?_⟩
    obtain ⟨s1, a1, a2⟩ := pairs_run (ps := g.1) hm
      (fun p hp => ⟨(h1 p hp).1.holds.1, (h1 p hp).1.holds.2.1⟩) (fun _ p hp => (h1 p hp).2) (by omega)
    rw [h3] at a1
    cases a1
    obtain ⟨doc', s2, a3, a4⟩ := a2 sl
    rw [h4] at a3
    cases a3
    exact (a4 h2).2
  have hj : joined c (ps.map Prod.snd) = joined c ((gs.map Prod.fst).flatten.map Prod.snd) := by
    have := joined_steps hk hm.top (gs.map fun g => g.1.map Prod.snd)
    rw [List.map_map] at this
    have e1 : ps.map Prod.snd = gs.map ((fun ts => topTree c.topLevel (joined c ts)) ∘ fun g => g.1.map Prod.snd) := by
      show (gs.map _).map Prod.snd = _
      rw [List.map_map]; rfl
    rw [e1, this, List.map_flatten, List.map_map]
    rfl
  obtain ⟨s, doc, s', h1, h2, h3⟩ := C70_partial c cs ps hm (fun p h => (hp p h).1) (fun _ p h => (hp p h).2)
    (by rw [hj]; exact hn) slack
  have e2 : ps.map Prod.fst = gs.map Prod.snd := by
    show (gs.map _).map Prod.fst = _
    rw [List.map_map]; rfl
  rw [e2] at h1
  rw [hj] at h3
  exact ⟨_, s, doc, s', h1, h2, fun h => (h3 h).1⟩

/-! ### Documents written by `Marshal` -/

/-- What `Marshal` writes for such values is portable. -/
theorem SmoothData.portableDoc {cfg : ECfg} {cs : Codecs} {inp : Heap} {v : Val} {doc raw : Bytes} (hl : Lossless cs)
    (hord : ∀ n ks, (cfg.ord n ks).Perm ks) (hver : cfg.ver = 2 ∨ cfg.ver = 3) (hs : SmoothData cfg inp v)
    (h : marshal cfg cs inp v = .ok doc) (hr : marshal cfg.uncompressed cs inp v = .ok raw)
    (hsz : doc.length < 2 ^ 31) (hrs : raw.length < 2 ^ 31) : PortableDoc cs doc := by
  obtain ⟨body, h1, h2, h3⟩ := marshal_hasBody hl hver h hr hsz hrs
  obtain ⟨y, vs, h4⟩ := encodeAfter_carried hord hs h2 h3
  exact ⟨body, y, vs, h1, by omega, h4⟩

theorem Plain.smoothData {n : Nat} {inp : Heap} {v : Val} (h : Plain n inp v) (cfg : ECfg) : SmoothData cfg inp v := by
  refine ⟨Plain n inp, h, fun w hw => ⟨?_, ?_⟩⟩
  · cases hw with
    | slice _ h => exact h
    | smap _ _ _ h => exact h
    | _ => trivial
  · cases hw <;> trivial

/-- Documents for plain data are where assembling starts. -/
theorem Plain.assembled {cfg : ECfg} {cs : Codecs} {inp : Heap} {v : Val} {doc : Bytes} (hl : Lossless cs)
    (hp : Plain maxSize inp v) (hord : ∀ n ks, (cfg.ord n ks).Perm ks) (hver : cfg.ver = 2 ∨ cfg.ver = 3)
    (hc : cfg.compression = none) (h : marshal cfg cs inp v = .ok doc) (hsz : doc.length < 2 ^ 31) :
    ∃ t, Assembled cs doc t ∧ Written cfg inp false v t := by
  obtain ⟨t, h1, h2, h3⟩ := hp.doc hord hver hc h hsz
  have hu : cfg.uncompressed = cfg := by unfold ECfg.uncompressed; rw [← hc]
  exact ⟨t, .given ((hp.smoothData cfg).portableDoc hl hord hver h (by rw [hu]; exact h) hsz hsz) h1 h2, h3⟩

/-! ### What cannot be merged again -/

/-- What one would expect: the result of `Finish` can be appended to another merger. -/
def MergesAgain : Prop := ∀ (c c' : MCfg) (cs : Codecs) (calls : List MCall) (ns : List Nat) (s s' : MState)
    (slack doc : Bytes), c.ver ≤ 3 → c'.ver ≤ 3 → c'.topLevel ≠ .invalid → appendAll c cs calls {} = some (ns, s) →
    mergeFinish c cs slack s = (.ok doc, s') → ∃ ns' s2, appendAll c' cs [⟨doc, [], 0⟩] {} = some (ns', s2)

/-- An object of class `A`. -/
def oneObject : Bytes := rawDoc [0x2c, 0x61, 0x41, 1]

def mergedTwice (c c' : MCfg) (calls : List MCall) : Option Bool :=
  (mergeRun c noCodecs calls []).map fun r => (appendAll c' noCodecs [⟨r.doc, [], 0⟩] {}).isSome

/-- The full statement is false: two objects of one class, and the merged document is refused. -/
theorem C70_fails : ¬ MergesAgain := by
  intro hp
  have h : mergedTwice {} {} [⟨oneObject, [], 0⟩, ⟨oneObject, [], 0⟩] = some false := by decide +kernel
  unfold mergedTwice at h
  cases hr : mergeRun {} noCodecs [⟨oneObject, [], 0⟩, ⟨oneObject, [], 0⟩] [] with
  | none => rw [hr] at h; cases h
  | some r =>
    obtain ⟨h1, h2⟩ := mergeRun_some hr
    obtain ⟨ns', s2, h3⟩ := hp {} {} noCodecs _ _ _ _ _ _ (by decide) (by decide) (by decide) h1 h2
    rw [hr] at h
    simp [h3] at h

/-- An array of a string and its copy; in the second one, the array is tracked. -/
def copyDoc : Bytes := rawDoc [0x2b, 2, 0x62, 0x61, 0x62, 0x2f, 3]
def trackedDoc : Bytes := rawDoc [0x2b + 128, 2, 0x62, 0x61, 0x62, 0x2f, 3]

/-- Why `Front` is needed: with KeepFlat, the tracked array is not among the items, the merger waits for it, and does not
record where the string went. -/
theorem C70_front : (appendAll { keepFlat := true, topLevel := .array } noCodecs [⟨copyDoc, [], 0⟩] {}).isSome = true ∧
    (appendAll { keepFlat := true, topLevel := .array } noCodecs [⟨trackedDoc, [], 0⟩] {}).isSome = false ∧
    (appendAll { topLevel := .array } noCodecs [⟨trackedDoc, [], 0⟩] {}).isSome = true ∧
    unmarshals noCodecs trackedDoc = true := by decide +kernel

/-! ### Examples -/

/-- Two documents are merged, then the result with one of them, keeping the array flat or not. -/
def twoSteps (c c' : MCfg) : Option (List Nat × Bytes) :=
  (mergeRun c noCodecs [⟨copyDoc, [], 0⟩, ⟨sampleStrDoc, [], 0⟩] []).bind fun r =>
    (mergeRun c' noCodecs [⟨r.doc, [], 0⟩, ⟨copyDoc, [], 0⟩] []).map fun r => (r.counts, r.doc)

example : twoSteps { keepFlat := true, topLevel := .array } { keepFlat := true, topLevel := .array } =
    some ([3, 2], rawDoc [0x2b, 5, 0x3f, 0x3f, 0x3f, 0x3f, 0x3f, 0x3f, 0x3f, 0x3f, 0x62, 0x61, 0x62, 0x2f, 11,
      0x27, 2, 0x68, 0x69, 0x62, 0x61, 0x62, 0x2f, 20]) := by decide +kernel

example : twoSteps { keepFlat := true, topLevel := .array } {} =
    some ([1, 1], rawDoc [0x28, 0x2b, 2, 0x3f, 0x3f, 0x3f, 0x3f, 0x2b, 3, 0x3f, 0x3f, 0x3f, 0x3f,
      0x62, 0x61, 0x62, 0x2f, 14, 0x27, 2, 0x68, 0x69, 0x2b, 2, 0x62, 0x61, 0x62, 0x2f, 25]) := by decide +kernel

theorem sampleMapDoc_given (cs : Codecs) : Assembled cs sampleMapDoc (.ref (.map [([0x6b, 0x6b], .int 5)])) ∧
    FrontDoc cs sampleMapDoc := by
  have hb : HasBody cs sampleMapDoc [0x28, 0x2a, 1, 0x62, 0x6b, 0x6b, 5] :=
    ⟨3, 0, [0], [], _, none, ⟨rfl, by decide, by decide, (by show (0 : UInt8).toNat < 128; decide), by decide, rfl,
      by decide⟩, by decide, rfl, rfl⟩
  have hv : Vint wrtDialect [0, 0x28, 0x2a, 1, 0x62, 0x6b, 0x6b, 5] 3 1 4 :=
    Vint.of_span (n := 1) ⟨⟨[0x62, 0x6b, 0x6b, 5], by decide +kernel⟩, by decide +kernel⟩ (by decide)
  refine ⟨.given ⟨_, 0, [4], hb, by decide, ?_⟩ (sampleMapDoc_holds cs) (.ref (.map ?_)), _, hb, 0x28, 0x2a, _, rfl,
    by decide, by decide, fun _ => by decide⟩
  · refine .cons (b := 0x28) rfl (by decide) (.single (by decide)) ?_
    refine .cons (b := 0x2a) rfl (by decide) (.box (.inr (by decide)) hv (by decide)) ?_
    refine .cons (b := 0x62) rfl (by decide) (.short (n := 2) (by decide) (by decide)) ?_
    exact .cons (b := 5) rfl (by decide) (.single (by decide)) .nil
  · intro kv hkv
    rcases List.mem_cons.1 hkv with rfl | h
    · exact .int
    · cases h

/-- The document is merged with itself (the second key becomes a COPY). -/
def sampleTwice : Bytes := rawDoc ([0x28, 0x2b, 2, 0x3f, 0x3f, 0x3f, 0x3f] ++ [0x28, 0x2a, 1, 0x62, 0x6b, 0x6b, 5] ++
  [0x28, 0x2a, 1, 0x2f, 11, 5])

theorem sampleTwice_assembled : Assembled noCodecs sampleTwice
    (.ref (.arr [.ref (.map [([0x6b, 0x6b], .int 5)]), .ref (.map [([0x6b, 0x6b], .int 5)])])) := by
  have e : (mergeRun {} noCodecs [⟨sampleMapDoc, [], 0⟩, ⟨sampleMapDoc, [], 0⟩] []).map (fun r => (r.doc, ())) =
    some (sampleTwice, ()) := by decide +kernel
  obtain ⟨r, hr, h3, -⟩ := mergeRun_map e
  obtain ⟨h1, h2⟩ := mergeRun_some hr
  rw [h3] at h2
  exact .merged (c := {}) (ps := [(⟨sampleMapDoc, [], 0⟩, .ref (.map [([0x6b, 0x6b], .int 5)])),
    (⟨sampleMapDoc, [], 0⟩, .ref (.map [([0x6b, 0x6b], .int 5)]))])
    ⟨by decide, by decide, by decide, rfl, rfl⟩ (fun h => by cases h) (by
      intro p hp
      simp at hp
      subst hp
      exact (sampleMapDoc_given _).1) h1 h2 (by decide) (by decide)

/-- The hypotheses of `C70_partial` hold for this document and the one it was made of. -/
example (slack : Bytes) : ∃ s doc s', appendAll {} noCodecs [⟨sampleTwice, [], 0⟩, ⟨sampleMapDoc, [], 0⟩] {} = some ([1, 1], s) ∧
    mergeFinish {} noCodecs slack s = (.ok doc, s') := by
  obtain ⟨s, doc, s', h1, h2, -⟩ := C70_partial {} noCodecs
    [(⟨sampleTwice, [], 0⟩, .ref (.arr [.ref (.map [([0x6b, 0x6b], .int 5)]), .ref (.map [([0x6b, 0x6b], .int 5)])])),
      (⟨sampleMapDoc, [], 0⟩, .ref (.map [([0x6b, 0x6b], .int 5)]))]
    ⟨by decide, by decide, by decide, rfl, rfl⟩ (by
      intro p hp
      rcases List.mem_cons.1 hp with rfl | hp
      · exact sampleTwice_assembled
      · rcases List.mem_cons.1 hp with rfl | hp
        · exact (sampleMapDoc_given _).1
        · cases hp) (fun h => by cases h) (by decide) slack
  exact ⟨s, doc, s', h1, h2⟩

end Sereal
