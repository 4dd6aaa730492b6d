import Verif.Proof.EmitEnc
/-
What the encoder writes: the main theorem.
-/
namespace Sereal

variable {c : ECfg} {inp : Heap} {base : Nat} {R : Tree → Prop}

/-! ### json.Number -/

theorem digits_foldl (ds : Bytes) (n : Nat) :
    ds.foldl (fun n d => n * 10 + (d.toNat - 48)) n ≥ n := by
  induction ds generalizing n with
  | nil => simp
  | cons d ds ih => simp only [List.foldl_cons]; exact Nat.le_trans (by omega) (ih _)

theorem u8_digit {d : UInt8} : ¬ (d < 48 ∨ 57 < d) ↔ 48 ≤ d ∧ d ≤ 57 := by
  simp only [UInt8.lt_iff_toNat_lt, UInt8.le_iff_toNat_le, not_or, Nat.not_lt]

/-- What the digit loop returns, by case. -/
theorem parseUintLoop_spec (ds : Bytes) (n : Nat) (hn : n < 2 ^ 64) :
    match parseUintLoop ds n with
    | .ok m => m = ((ds.foldl (fun n d => n * 10 + (d.toNat - 48)) n : Nat) : Int) ∧
        (∀ d ∈ ds, 48 ≤ d ∧ d ≤ 57) ∧ m < 2 ^ 64
    | .range => (∀ d ∈ ds, 48 ≤ d ∧ d ≤ 57) →
        2 ^ 64 ≤ ds.foldl (fun n d => n * 10 + (d.toNat - 48)) n
    | .syn => ¬ ∀ d ∈ ds, 48 ≤ d ∧ d ≤ 57 := by
  induction ds generalizing n with
  | nil => simp [parseUintLoop]; omega
  | cons d ds ih =>
    unfold parseUintLoop
    by_cases h1 : d < 48 ∨ 57 < d
    · rw [if_pos h1]
      dsimp only
      intro h
      exact u8_digit.2 (h d (by simp)) h1
    · rw [if_neg h1]
      by_cases h2 : n ≥ 1844674407370955162
      · rw [if_pos h2]
        dsimp only
        intro _
        simp only [List.foldl_cons]
        exact Nat.le_trans (by omega) (digits_foldl ds _)
      · rw [if_neg h2]
        dsimp only
        by_cases h3 : n * 10 + (d.toNat - 48) ≥ 2 ^ 64
        · rw [if_pos h3]
          dsimp only
          intro _
          simp only [List.foldl_cons]
          exact Nat.le_trans h3 (digits_foldl ds _)
        · rw [if_neg h3]
          have := ih (n * 10 + (d.toNat - 48)) (by omega)
          cases hp : parseUintLoop ds (n * 10 + (d.toNat - 48)) with
          | ok m =>
            rw [hp] at this
            dsimp only at this ⊢
            refine ⟨by simpa using this.1, ?_, this.2.2⟩
            intro x hx
            rcases List.mem_cons.1 hx with rfl | hx
            · exact u8_digit.1 h1
            · exact this.2.1 x hx
          | range =>
            rw [hp] at this
            dsimp only at this ⊢
            intro h
            simp only [List.foldl_cons]
            exact this (fun x hx => h x (by simp [hx]))
          | syn =>
            rw [hp] at this
            dsimp only at this ⊢
            intro h
            exact this (fun x hx => h x (by simp [hx]))

/-- strconv.ParseInt recognises exactly the integer texts, and reports which do not fit. -/
theorem parseInt_spec (s : Bytes) :
    match parseInt s with
    | .ok z => IntText s z ∧ -2 ^ 63 ≤ z ∧ z < 2 ^ 63
    | .range => ∀ z, IntText s z → z < -2 ^ 63 ∨ 2 ^ 63 ≤ z
    | .syn => ∀ z, ¬ IntText s z := by
  unfold parseInt
  cases s with
  | nil =>
    dsimp only
    intro z hz
    cases hz; contradiction
  | cons ch rest =>
    dsimp only
    -- the two spellings: with and without sign
    by_cases hs : ch = 43 ∨ ch = 45
    · rw [if_pos hs]
      have inv : ∀ z, IntText (ch :: rest) z → rest ≠ [] ∧ (∀ d ∈ rest, 48 ≤ d ∧ d ≤ 57) ∧
          z = (if ch = 45 then -(digitsVal rest : Int) else digitsVal rest) := by
        intro z hz
        cases hz with
        | plain _ h2 =>
          exfalso
          have := (h2 ch (by simp)).1
          rcases hs with rfl | rfl <;> revert this <;> decide
        | plus h1 h2 => exact ⟨h1, h2, by rw [if_neg (by decide)]⟩
        | minus h1 h2 => exact ⟨h1, h2, by rw [if_pos rfl]⟩
      by_cases hr : rest = []
      · rw [if_pos hr]
        dsimp only
        intro z hz
        exact (inv z hz).1 hr
      · rw [if_neg hr]
        have hsp := parseUintLoop_spec rest 0 (by omega)
        cases hp : parseUintLoop rest 0 with
        | range =>
          rw [hp] at hsp
          dsimp only at hsp ⊢
          intro z hz
          obtain ⟨_, h2, rfl⟩ := inv z hz
          have := hsp h2
          unfold digitsVal
          split <;> omega
        | syn =>
          rw [hp] at hsp
          dsimp only at hsp ⊢
          intro z hz
          exact hsp (inv z hz).2.1
        | ok un =>
          rw [hp] at hsp
          dsimp only at hsp ⊢
          obtain ⟨hun, hd, hlt⟩ := hsp
          have hun' : un = (digitsVal rest : Int) := hun
          have hnn : 0 ≤ un := by omega
          by_cases hm : ch = 45
          · simp only [hm, decide_true, Bool.not_true, Bool.false_and, Bool.false_eq_true, if_false,
              Bool.true_and, decide_eq_true_eq, if_true]
            by_cases hb : un > 2 ^ 63
            · rw [if_pos hb]
              dsimp only
              intro z hz
              have := (inv z (by rw [hm]; exact hz)).2.2
              rw [if_pos hm] at this
              omega
            · rw [if_neg hb]
              dsimp only
              refine ⟨?_, by omega, by omega⟩
              rw [hun']
              exact .minus hr hd
          · have hpl : ch = 43 := hs.resolve_right hm
            simp only [hm, decide_false, Bool.not_false, Bool.true_and, decide_eq_true_eq, Bool.false_and,
              Bool.false_eq_true, if_false]
            by_cases hb : un ≥ 2 ^ 63
            · rw [if_pos hb]
              dsimp only
              intro z hz
              have := (inv z hz).2.2
              rw [if_neg hm] at this
              omega
            · rw [if_neg hb]
              dsimp only
              refine ⟨?_, by omega, by omega⟩
              rw [hun', hpl]
              exact .plus hr hd
    · rw [if_neg hs]
      have inv : ∀ z, IntText (ch :: rest) z → (∀ d ∈ ch :: rest, 48 ≤ d ∧ d ≤ 57) ∧
          z = digitsVal (ch :: rest) := by
        intro z hz
        generalize hcr : ch :: rest = s at hz
        cases hz with
        | plain _ h2 => exact ⟨h2, rfl⟩
        | plus => cases hcr; exact absurd (.inl rfl) hs
        | minus => cases hcr; exact absurd (.inr rfl) hs
      rw [if_neg (by simp)]
      have hm : ch ≠ 45 := fun h => hs (.inr h)
      have hsp := parseUintLoop_spec (ch :: rest) 0 (by omega)
      cases hp : parseUintLoop (ch :: rest) 0 with
      | range =>
        rw [hp] at hsp
        dsimp only at hsp ⊢
        intro z hz
        obtain ⟨h2, rfl⟩ := inv z hz
        have := hsp h2
        unfold digitsVal
        omega
      | syn =>
        rw [hp] at hsp
        dsimp only at hsp ⊢
        intro z hz
        exact hsp (inv z hz).1
      | ok un =>
        rw [hp] at hsp
        dsimp only at hsp ⊢
        obtain ⟨hun, hd, hlt⟩ := hsp
        have hun' : un = (digitsVal (ch :: rest) : Int) := hun
        simp only [hm, decide_false, Bool.not_false, Bool.true_and, decide_eq_true_eq, Bool.false_and,
          Bool.false_eq_true, if_false]
        by_cases hb : un ≥ 2 ^ 63
        · rw [if_pos hb]
          dsimp only
          intro z hz
          have := (inv z hz).2
          omega
        · rw [if_neg hb]
          dsimp only
          refine ⟨?_, by omega, by omega⟩
          rw [hun']
          exact .plain (by simp) hd

theorem digits_first {d : UInt8} {s : Bytes} (hd : 48 ≤ d ∧ d ≤ 57) {sign ds rest : Bytes}
    (h : d :: s = sign ++ ds ++ rest) (hs : sign = [] ∨ sign = [43] ∨ sign = [45]) : sign = [] := by
  rcases hs with rfl | rfl | rfl
  · rfl
  · cases h; revert hd; decide
  · cases h; revert hd; decide

/-- When the digit loop reports overflow. -/
theorem parseUintLoop_over (ds : Bytes) (n : Nat) (hn : n < 2 ^ 64) :
    parseUintLoop ds n = .range ↔ ∃ d1 d2, ds = d1 ++ d2 ∧ (∀ d ∈ d1, 48 ≤ d ∧ d ≤ 57) ∧
      2 ^ 64 ≤ d1.foldl (fun n d => n * 10 + (d.toNat - 48)) n := by
  induction ds generalizing n with
  | nil =>
    constructor
    · intro h; cases h
    · rintro ⟨d1, d2, h, _, h2⟩
      have : d1 = [] := by
        cases d1 with
        | nil => rfl
        | cons => cases h
      subst this
      simp at h2; omega
  | cons d ds ih =>
    unfold parseUintLoop
    by_cases h1 : d < 48 ∨ 57 < d
    · rw [if_pos h1]
      constructor
      · intro h; cases h
      · rintro ⟨d1, d2, h, hd, h2⟩
        cases d1 with
        | nil => simp at h2; omega
        | cons x d1 => cases h; exact absurd h1 (u8_digit.2 (hd _ (by simp)))
    · rw [if_neg h1]
      have hdig := u8_digit.1 h1
      by_cases h2 : n ≥ 1844674407370955162
      · rw [if_pos h2]
        refine ⟨fun _ => ⟨[d], ds, rfl, by simpa using hdig, ?_⟩, fun _ => rfl⟩
        simp only [List.foldl_cons, List.foldl_nil]
        omega
      · rw [if_neg h2]
        dsimp only
        by_cases h3 : n * 10 + (d.toNat - 48) ≥ 2 ^ 64
        · rw [if_pos h3]
          exact ⟨fun _ => ⟨[d], ds, rfl, by simpa using hdig, by simpa using h3⟩, fun _ => rfl⟩
        · rw [if_neg h3, ih _ (by omega)]
          constructor
          · rintro ⟨d1, d2, rfl, hd, hb⟩
            refine ⟨d :: d1, d2, rfl, ?_, hb⟩
            intro x hx
            rcases List.mem_cons.1 hx with rfl | hx
            · exact hdig
            · exact hd x hx
          · rintro ⟨d1, d2, h, hd, hb⟩
            cases d1 with
            | nil => simp at hb; omega
            | cons x d1 =>
              cases h
              exact ⟨d1, d2, rfl, fun x hx => hd x (List.mem_cons_of_mem _ hx), hb⟩

theorem digitOverflow_iff (ch : UInt8) (rest : Bytes) :
    DigitOverflow (ch :: rest) ↔
      parseUintLoop (if ch = 43 ∨ ch = 45 then rest else ch :: rest) 0 = .range := by
  rw [parseUintLoop_over _ _ (by omega)]
  by_cases hs : ch = 43 ∨ ch = 45
  · rw [if_pos hs]
    constructor
    · rintro ⟨sign, ds, r, h, hsg, hd, hb⟩
      have h0 : sign ≠ [] := by
        rintro rfl
        cases ds with
        | nil => simp [digitsVal] at hb
        | cons x ds =>
          cases h
          have := (hd _ (List.mem_cons_self)).1
          rcases hs with rfl | rfl <;> revert this <;> decide
      rcases hsg with rfl | rfl | rfl
      · exact absurd rfl h0
      · cases h; exact ⟨ds, r, rfl, hd, hb⟩
      · cases h; exact ⟨ds, r, rfl, hd, hb⟩
    · rintro ⟨d1, d2, rfl, hd, hb⟩
      refine ⟨[ch], d1, d2, rfl, ?_, hd, hb⟩
      rcases hs with rfl | rfl
      · exact .inr (.inl rfl)
      · exact .inr (.inr rfl)
  · rw [if_neg hs]
    constructor
    · rintro ⟨sign, ds, r, h, hsg, hd, hb⟩
      rcases hsg with rfl | rfl | rfl
      · exact ⟨ds, r, h, hd, hb⟩
      · cases h; exact absurd (.inl rfl) hs
      · cases h; exact absurd (.inr rfl) hs
    · rintro ⟨d1, d2, h, hd, hb⟩
      exact ⟨[], d1, d2, h, .inl rfl, hd, hb⟩

/-- Why strconv.ParseInt reports a range or a syntax error. -/
theorem parseInt_over (s : Bytes) :
    (parseInt s = .range → (∃ z, IntText s z) ∨ DigitOverflow s) ∧
    (parseInt s = .syn → ¬ DigitOverflow s) := by
  cases s with
  | nil =>
    refine ⟨fun h => (by cases h), fun _ => ?_⟩
    rintro ⟨sign, ds, r, h, _, _, hb⟩
    have : ds = [] := by
      cases ds with
      | nil => rfl
      | cons => simp at h
    subst this
    simp [digitsVal] at hb
  | cons ch rest =>
    rw [digitOverflow_iff]
    unfold parseInt
    dsimp only
    generalize hdg : (if ch = 43 ∨ ch = 45 then rest else ch :: rest) = digits
    by_cases hz : digits = []
    · rw [if_pos hz, hz]
      exact ⟨fun h => by (cases h), fun _ h => by (cases h)⟩
    · rw [if_neg hz]
      cases hp : parseUintLoop digits 0 with
      | range => exact ⟨fun _ => .inr rfl, fun h => by cases h⟩
      | syn => exact ⟨fun h => by (cases h), fun _ h => by (cases h)⟩
      | ok un =>
        have hsp := parseUintLoop_spec digits 0 (by omega)
        rw [hp] at hsp
        refine ⟨fun _ => .inl ?_, fun _ h => by cases h⟩
        by_cases hs : ch = 43 ∨ ch = 45
        · rw [if_pos hs] at hdg
          subst hdg
          rcases hs with rfl | rfl
          · exact ⟨_, .plus hz hsp.2.1⟩
          · exact ⟨_, .minus hz hsp.2.1⟩
        · rw [if_neg hs] at hdg
          subst hdg
          exact ⟨_, .plain hz hsp.2.1⟩

theorem jnumItem (s : Bytes) (rn : Bool) :
    EncItem c inp base (encodeJsonNumber c s false) (Written c inp rn (.jnum s)) := by
  unfold encodeJsonNumber
  have := parseInt_spec s
  cases hp : parseInt s with
  | ok i =>
    rw [hp] at this
    dsimp only at this ⊢
    refine leafInt ?_
    rw [if_pos (.inl rfl), Int64.toInt_ofInt_of_le (by omega) (by omega)]
    exact .jnumInt this.1 this.2.1 this.2.2
  | range =>
    rw [hp] at this
    dsimp only at this ⊢
    rw [encodeString_false]
    exact leafStr (.jnumText this (((parseInt_over s).1 hp).imp_right .inl))
  | syn =>
    rw [hp] at this
    dsimp only at this ⊢
    cases hf : c.parseFloat s with
    | some f => exact leafDouble (.jnumFloat this ((parseInt_over s).2 hp) hf)
    | none =>
      dsimp only
      rw [encodeString_false]
      exact leafStr (.jnumText (fun z hz => absurd hz (this z)) (.inr (.inr hf)))

/-! ### The main theorem -/

theorem failItem {e : Exn} : EncItem c inp base (E.fail e) R := by
  intro s s' g _ he; cases he

theorem sliceVals_get {p n i : Nat} (h : i < n) : (sliceVals inp p n)[i]? = some (inp.cellAt (p + i)) := by
  simp [sliceVals, h]

theorem sliceVals_length {p n : Nat} : (sliceVals inp p n).length = n := by simp [sliceVals]

theorem arrVal {rec : Val → E Unit} {W : Val → Tree → Prop} (hrec : ∀ v, EncItem c inp base (rec v) (W v))
    (p n : Nat) (rn : Bool) :
    EncItem c inp base (encodeArr c rec (sliceVals inp p n) rn) (fun t => ∃ ts, ts.length = n ∧
      t = refWrap (c.perlCompat && !rn) (.arr ts) ∧
      ∀ (i : Nat) t, ts[i]? = some t → W (inp.cellAt (p + i)) t) := by
  unfold encodeArr
  refine (optRef (c.perlCompat && !rn) (arrItem hrec (sliceVals inp p n))).imp ?_
  rintro t ⟨t0, rfl, ts, rfl, hl, hW⟩
  rw [sliceVals_length] at hl
  refine ⟨ts, hl, rfl, fun i t ht => hW i t _ ht (sliceVals_get ?_)⟩
  have := (List.getElem?_eq_some_iff.1 ht).1
  omega

theorem mapVal {rec : Val → E Unit} {W : Val → Tree → Prop} (hrec : ∀ v, EncItem c inp base (rec v) (W v))
    (hord : ∀ n ks, (c.ord n ks).Perm ks) (kvs : List (Bytes × Val)) (rn b : Bool) :
    EncItem c inp base (encodeMp c rec kvs rn b) (fun t => ∃ kts, t = refWrap (c.perlCompat && !rn) (.map kts) ∧
      (kts.map Prod.fst).Perm (kvs.map Prod.fst) ∧
      ∀ k t v, (k, t) ∈ kts → mapLookup k kvs = some v → W v t) := by
  unfold encodeMp
  refine (optRef (c.perlCompat && !rn) (mapItem (fun k => encKey_string k b) hrec hord kvs)).imp ?_
  rintro t ⟨t0, rfl, kts, rfl, hp, hW⟩
  refine ⟨kts, rfl, hp, fun k t v hk hv => ?_⟩
  have := hW k t hk
  rw [hv] at this
  exact this

theorem encodeVal_item (hord : ∀ n ks, (c.ord n ks).Perm ks) (rec : Option (Val → Bool → Bool → E Unit))
    (hrec : ∀ r, rec = some r → ∀ v rn, EncItem c inp base (r v false rn) (Written c inp rn v)) :
    ∀ (v : Val) (rn : Bool), EncItem c inp base (encodeVal c inp rec v false rn) (Written c inp rn v) := by
  intro v
  induction v with
  | nil => intro rn; exact leaf0 (by decide) .nil (fun _ => .undef) (fun _ _ _ => .undef)
  | bool b =>
    intro rn
    cases b with
    | true => exact leaf0 (tag := typeTRUE) (by decide) .bool (fun _ => .bool) (fun _ _ _ => .true_)
    | false => exact leaf0 (tag := typeFALSE) (by decide) .bool (fun _ => .bool) (fun _ _ _ => .false_)
  | nbool b =>
    intro rn
    cases b with
    | true => exact leaf0 (tag := typeTRUE) (by decide) .nbool (fun _ => .bool) (fun _ _ _ => .true_)
    | false => exact leaf0 (tag := typeFALSE) (by decide) .nbool (fun _ => .bool) (fun _ _ _ => .false_)
  | int k i =>
    intro rn
    exact leafInt (by rw [if_pos (.inl rfl)]; exact .int)
  | uint k n => intro rn; exact leafUint .uint
  | f32 u => intro rn; exact leafFloat .f32
  | f64 u => intro rn; exact leafDouble .f64
  | nf32 u => intro rn; exact leafFloat .nf32
  | nf64 u => intro rn; exact leafDouble .nf64
  | jnum s => intro rn; exact jnumItem s rn
  | str s => intro rn; unfold encodeVal; rw [encodeString_false]; exact leafStr .str
  | nstr s => intro rn; unfold encodeVal; rw [encodeString_false]; exact leafStr .nstr
  | bin s => intro rn; unfold encodeVal; rw [encodeBytes_false]; exact leafBin .bin
  | slice p n =>
    intro rn
    unfold encodeVal
    cases rec with
    | none => exact failItem
    | some r =>
      refine (arrVal (fun v => hrec r rfl v false) p n rn).imp ?_
      rintro t ⟨ts, rfl, rfl, hW⟩
      exact .slice hW
  | rslice p n =>
    intro rn
    unfold encodeVal
    cases rec with
    | none => exact failItem
    | some r =>
      refine (arrVal (fun v => hrec r rfl v false) p n rn).imp ?_
      rintro t ⟨ts, rfl, rfl, hW⟩
      exact .rslice hW
  | smap m =>
    intro rn
    unfold encodeVal
    cases rec with
    | none => exact failItem
    | some r =>
      refine (mapVal (fun v => hrec r rfl v false) hord (inp.mapAt m) rn true).imp ?_
      rintro t ⟨kts, rfl, hp, hW⟩
      exact .smap hp hW
  | rmap m =>
    intro rn
    unfold encodeVal
    cases rec with
    | none => exact failItem
    | some r =>
      refine (mapVal (fun v => hrec r rfl v false) hord (inp.mapAt m) rn _).imp ?_
      rintro t ⟨kts, rfl, hp, hW⟩
      exact .rmap hp hW
  | undef b =>
    intro rn
    cases b with
    | true => exact leaf0 (tag := typeCANONICAL_UNDEF) (by decide) .cundef (fun _ => .cundef) (fun _ _ _ => .cundef)
    | false => exact leaf0 (tag := typeUNDEF) (by decide) .undef (fun _ => .undef) (fun _ _ _ => .undef)
  | obj cls ref ih =>
    intro rn
    exact objItem (encKey_bytes cls true) (ih false) (fun t ht => .obj ht)
  | regexp p m =>
    intro rn
    exact regexpItem (encKey_bytes p false) (encKey_bytes m false) .regexp
  | weak ref ih =>
    intro rn
    exact weakItem (ih false) (fun t ht => .weak ht)
  | frozen cls data =>
    intro rn
    unfold encodeVal
    cases rec with
    | none => exact failItem
    | some r =>
      refine (strctItem (fun v => hrec r rfl v false) hord namePerlFreeze _).imp ?_
      rintro t ⟨kts, rfl, hnd, hk, hW⟩
      refine .frozen ?_
      show kts.Perm [(nameClass, .str cls), (nameData, .bin data)]
      have hfe : fieldEntries [⟨nameClass, [], true, .str cls⟩, ⟨nameData, [], true, .bin data⟩] =
          [(nameClass, .str cls), (nameData, .bin data)] := by
        simp [fieldEntries, effName]
      rw [hfe] at hk hW
      have hv : ∀ k t, (k, t) ∈ kts → (k, t) ∈ [(nameClass, Tree.str cls), (nameData, Tree.bin data)] := by
        intro k t hkt
        have h1 := (hk k).1 (List.mem_map.2 ⟨(k, t), hkt, rfl⟩)
        simp only [List.map_cons, List.map_nil, List.mem_cons, List.not_mem_nil, or_false] at h1
        rcases h1 with rfl | rfl
        · have := hW nameClass t (.str cls) hkt (by simp [lastLookup, mapLookup, nameClass, nameData])
          cases this
          simp
        · have := hW nameData t (.bin data) hkt (by simp [lastLookup, mapLookup, nameClass, nameData])
          cases this
          simp
      have hnd' : kts.Nodup := List.Pairwise.of_map Prod.fst (fun a b h e => h (by rw [e])) hnd
      refine (List.perm_ext_iff_of_nodup hnd' (by simp [nameClass, nameData])).2 (fun x => ?_)
      obtain ⟨k, t⟩ := x
      refine ⟨hv k t, fun hm => ?_⟩
      have h1 : k ∈ kts.map Prod.fst := (hk k).2 (by
        simp only [List.mem_cons, List.not_mem_nil, or_false, Prod.mk.injEq] at hm
        rcases hm with ⟨rfl, _⟩ | ⟨rfl, _⟩ <;> simp)
      obtain ⟨⟨k', t'⟩, hmem, hkk⟩ := List.mem_map.1 h1
      cases hkk
      have h2 := hv _ t' hmem
      have : t = t' := by
        simp only [List.mem_cons, List.not_mem_nil, or_false, Prod.mk.injEq] at hm h2
        rcases hm with ⟨rfl, rfl⟩ | ⟨rfl, rfl⟩ <;> rcases h2 with ⟨h3, rfl⟩ | ⟨h3, rfl⟩ <;>
          first | rfl | (exfalso; revert h3; decide)
      rw [this]; exact hmem
  | thawed cls data => intro rn; exact failItem
  | ptr iface a =>
    intro rn
    unfold encodeVal
    cases rec with
    | none => exact failItem
    | some r => exact ptrItem (fun v rn => hrec r rfl v rn) iface a rn
  | nilptr =>
    intro rn
    unfold encodeVal
    cases rec with
    | none => exact failItem
    | some r =>
      refine leaf (tag := typeREFN) (w := [typeUNDEF]) (by decide) .nilptr (fun n h => .ref .undef)
        (fun B i T _ _ h => ?_)
      obtain ⟨h1, h2⟩ := Span.head h
      exact .refn (.plain (TagAt.here' h1 (by decide)) (by decide) .undef)
  | nint k i =>
    intro rn
    refine leafInt ?_
    by_cases h : k = .int
    · rw [if_pos (.inl (by simp [h]))]; exact .nint (.inl h)
    · by_cases h2 : 0 ≤ i.toInt
      · rw [if_pos (.inr h2)]
        exact .nint (.inr (by rw [Int64.le_iff_toInt_le]; exact h2))
      · rw [if_neg (by simp [h, h2])]
        exact .nintWrap h (by rw [Int64.lt_iff_toInt_lt]; exact Int.not_le.1 h2)
  | nuint k n => intro rn; exact failItem
  | strct name a =>
    intro rn
    unfold encodeVal
    cases rec with
    | none => exact failItem
    | some r =>
      refine (strctItem (fun v => hrec r rfl v false) hord name (inp.fieldsAt a)).imp ?_
      rintro t ⟨kts, rfl, hnd, hk, hW⟩
      exact .strct hnd hk hW
  | marshaler cls res under ih =>
    intro rn
    unfold encodeVal
    by_cases hd : c.disableFreeze = true
    · rw [if_pos hd]
      exact (ih rn).imp (fun t ht => .marshalerOff hd ht)
    · rw [if_neg hd]
      cases res with
      | error n => exact failItem
      | ok data =>
        exact frzItem (encKey_string cls true) (.marshaler (by simpa using hd))
  | unsupported => intro rn; exact failItem

theorem encode_item (hord : ∀ n ks, (c.ord n ks).Perm ks) (d : Nat) (v : Val) (rn : Bool) :
    EncItem c inp base (encode c inp d v false rn) (Written c inp rn v) := by
  induction d using Nat.strongRecOn generalizing v rn with
  | _ d ih =>
    match d with
    | 0 => exact encodeVal_item hord none (fun _ h => by cases h) v rn
    | 1 => exact encodeVal_item hord none (fun _ h => by cases h) v rn
    | d + 2 =>
      exact encodeVal_item hord _ (fun r h => by
        cases h
        exact fun v rn => ih (d + 1) (by omega) v rn) v rn

/-- Body bytes written after the prefix `pre` form one well-formed item, wherever a prefix of the same
length precedes them and whatever follows; its tree satisfies `R` if the encoder guarantees that for a run
starting with empty tables. -/
theorem encodeAfter_of {R : Tree → Prop} {pre w : Bytes} {v : Val}
    (hitem : ∀ s s' g, EInv c inp pre.length s g → s.ptrTable = (fun _ => none) →
      encode c inp (remainingRecursion c.maxRecursionDepth) v false false s = .ok ((), s') →
      ∃ g' t, R t ∧ Step c inp pre.length (fun _ _ => False) s s' g g'
          (fun B T T' => Fits maxSize t →
            G wrtDialect B false .item g.raw.length T (.tree t) g'.raw.length T') ∧
        g'.seen g.raw.length = some (some t) ∧ Fits g'.raw.length t)
    (h : encodeAfter c inp pre v = .ok w) (hsz : pre.length + w.length < 2 ^ 63) :
    ∃ t, R t ∧ Fits (pre.length + w.length) t ∧
      ∀ pre' ext, pre'.length = pre.length → Fits maxSize t →
        Denotes wrtDialect (pre' ++ w ++ ext) pre.length t (pre.length + w.length) := by
  unfold encodeAfter at h
  split at h
  · rename_i s he
    cases h
    have hi : EInv c inp pre.length { buf := pre } ⟨pre, fun _ => none, fun _ => false⟩ :=
      { base_le := Nat.le_refl _
        len := rfl
        agree := fun i b hi hb => by
          have := (List.getElem?_eq_some_iff.1 hb).1
          have hi' : pre.length ≤ i := hi
          have : i < pre.length := this
          omega
        flags := fun o ho => by cases ho
        range := fun o ho => absurd rfl ho
        strs := fun k o ho => by cases ho
        ptrs := fun κ o ho => by cases ho }
    obtain ⟨g', t, hW, hst, _, hf⟩ := hitem _ _ _ hi rfl he
    have hlen := hst.inv.len
    have hle : pre.length ≤ g'.raw.length := hst.inv.base_le
    have hl : pre.length + (s.buf.drop pre.length).length = g'.raw.length := by
      rw [List.length_drop]; omega
    refine ⟨t, hW, by rw [hl]; exact hf, fun pre' ext hp hF => ?_⟩
    have := hst.reads g'.trk (pre' ++ s.buf.drop pre.length ++ ext)
      { agree := by
          intro i b hi hb
          have h1 := hst.inv.agree i b hi hb
          have h2 := (List.getElem?_eq_some_iff.1 h1).1
          rw [List.append_assoc, List.getElem?_append_right (by omega),
            List.getElem?_append_left (by rw [List.length_drop]; omega), List.getElem?_drop, hp,
            show pre.length + (i - pre.length) = i by omega]
          exact h1
        only := fun o _ ho => hst.inv.flags o ho
        all := fun o ho => ho
        size := by rw [← hl]; exact hsz } hF
    rw [hl]
    refine ⟨look g'.trk g'.seen, ?_⟩
    have hnone : look g'.trk (fun _ => none) = fun _ => none := by
      funext o; unfold look; split <;> rfl
    dsimp only at this
    rw [hnone] at this
    exact this
  · cases h

/-- The tree is one the value may be written as. -/
theorem encodeAfter_item (hord : ∀ n ks, (c.ord n ks).Perm ks) {pre w : Bytes} {v : Val}
    (h : encodeAfter c inp pre v = .ok w) (hsz : pre.length + w.length < 2 ^ 63) :
    ∃ t, Written c inp false v t ∧ Fits (pre.length + w.length) t ∧
      ∀ pre' ext, pre'.length = pre.length → Fits maxSize t →
        Denotes wrtDialect (pre' ++ w ++ ext) pre.length t (pre.length + w.length) :=
  encodeAfter_of (fun s s' g hi _ he => encode_item hord _ v false s s' g hi he) h hsz

end Sereal
