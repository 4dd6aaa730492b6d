import Verif.Model.Merge
import Verif.Proof.Strish
/-
The switch of `mergeItems`, by tag class.
-/
namespace Sereal

/-- `mergeTag` as a match on the class of the tag. -/
def mergeC (s : LState) (dbuf slack : Bytes) (dedup : Bool) (b : UInt8) : TagC → Res Moved
  | .int _ | .undef | .cundef | .true_ | .false_ | .short 0 => .ok (Moved.copy s [b] 1)
  | .pad | .refn | .weaken => .ok (Moved.copy s [b] 1 none true)
  | .varint | .zigzag => do
    let (_, sz) ← varintdecode (dbuf.drop (s.didx + 1))
    .ok (Moved.copy s ((dbuf.drop s.didx).take (sz + 1)) (sz + 1))
  | .float => do .ok (Moved.copy s (← cutCap dbuf slack s.didx (s.didx + 5)) 5)
  | .double => do .ok (Moved.copy s (← cutCap dbuf slack s.didx (s.didx + 9)) 9)
  | .short 1 => do .ok (Moved.copy s (← cutCap dbuf slack s.didx (s.didx + 2)) 2)
  | .short (n + 2) => mergeString s dbuf dedup ((n + 2 : Nat) : Int) 0
  | .binary | .strUtf8 => do
    let (ln, sz) ← varintdecode (dbuf.drop (s.didx + 1))
    mergeString s dbuf dedup ln sz
  | .copy => mergeOffset s dbuf b typeCOPY
  | .refp => mergeOffset s dbuf b typeREFP
  | .alias => mergeOffset s dbuf b typeALIAS
  | .objectv => mergeOffset s dbuf b typeOBJECTV
  | .freezev => mergeOffset s dbuf b typeOBJECTV_FREEZE
  | .array => mergeContainer s dbuf typeARRAY
  | .hash => mergeContainer s dbuf typeHASH
  | .arrayref n => .ok (Moved.copy s [b] 1 (some n))
  | .hashref n => .ok (Moved.copy s [b] 1 (some (hashEntry n)))
  | .regexp => mergeRegexp s dbuf
  | .object => mergeObject s dbuf typeOBJECT
  | .freeze => mergeObject s dbuf typeOBJECT_FREEZE
  | .other => .error .fuel                     -- not used

theorem mergeTag_eq (s : LState) (dbuf slack : Bytes) (dedup : Bool) (b : UInt8)
    (h : classify (b.toNat % 128) ≠ .other) :
    mergeTag s dbuf slack dedup b = mergeC s dbuf slack dedup b (classify (b.toNat % 128)) := by
  unfold mergeTag
  have hn := and_not_track b
  generalize b &&& ~~~ trackFlag = tag at hn
  rw [← hn] at h ⊢
  have hlt : tag.toNat < 128 := by omega
  clear hn
  rcases tag_cases tag hlt with h0 | ⟨h1, h2⟩ | ⟨h1, h2⟩ | ⟨h1, h2⟩ | ⟨h1, h2⟩
  · obtain ⟨i, hc, hi⟩ := decodeInt_eq tag h0
    rw [hc]
    dsimp only
    rw [if_pos (Or.inl h0)]
    rfl
  · have : ∃ n, n < 32 ∧ tag = UInt8.ofNat (32 + n) := ⟨tag.toNat - 32, by omega, by
      apply UInt8.toNat.inj; simp; omega⟩
    obtain ⟨n, hn, rfl⟩ := this
    clear h1 h2 hlt
    match n, hn with
    | 0, _ => rfl
    | 1, _ => rfl
    | 2, _ => rfl
    | 3, _ => rfl
    | 4, _ => exact absurd rfl h
    | 5, _ => rfl
    | 6, _ => rfl
    | 7, _ => rfl
    | 8, _ => rfl
    | 9, _ => rfl
    | 10, _ => rfl
    | 11, _ => rfl
    | 12, _ => rfl
    | 13, _ => rfl
    | 14, _ => rfl
    | 15, _ => rfl
    | 16, _ => rfl
    | 17, _ => rfl
    | 18, _ => rfl
    | 19, _ => rfl
    | 20, _ => exact absurd rfl h
    | 21, _ => exact absurd rfl h
    | 22, _ => exact absurd rfl h
    | 23, _ => exact absurd rfl h
    | 24, _ => exact absurd rfl h
    | 25, _ => rfl
    | 26, _ => rfl
    | 27, _ => rfl
    | 28, _ => exact absurd rfl h
    | 29, _ => exact absurd rfl h
    | 30, _ => exact absurd rfl h
    | 31, _ => rfl
    | n + 32, hn => omega
  · have : ∃ n, n < 16 ∧ tag = UInt8.ofNat (64 + n) := ⟨tag.toNat - 64, by omega, by
      apply UInt8.toNat.inj; simp; omega⟩
    obtain ⟨n, hn, rfl⟩ := this
    clear h1 h2 hlt
    match n, hn with
    | 0, _ | 1, _ | 2, _ | 3, _ | 4, _ | 5, _ | 6, _ | 7, _ | 8, _ | 9, _ | 10, _ | 11, _ | 12, _ | 13, _
    | 14, _ | 15, _ => rfl
    | n + 16, hn => omega
  · have : ∃ n, n < 16 ∧ tag = UInt8.ofNat (80 + n) := ⟨tag.toNat - 80, by omega, by
      apply UInt8.toNat.inj; simp; omega⟩
    obtain ⟨n, hn, rfl⟩ := this
    clear h1 h2 hlt
    match n, hn with
    | 0, _ | 1, _ | 2, _ | 3, _ | 4, _ | 5, _ | 6, _ | 7, _ | 8, _ | 9, _ | 10, _ | 11, _ | 12, _ | 13, _
    | 14, _ | 15, _ => rfl
    | n + 16, hn => omega
  · have : ∃ n, n < 32 ∧ tag = UInt8.ofNat (96 + n) := ⟨tag.toNat - 96, by omega, by
      apply UInt8.toNat.inj; simp; omega⟩
    obtain ⟨n, hn, rfl⟩ := this
    clear h1 h2 hlt
    match n, hn with
    | 0, _ | 1, _ | 2, _ | 3, _ | 4, _ | 5, _ | 6, _ | 7, _ | 8, _ | 9, _ | 10, _ | 11, _ | 12, _ | 13, _
    | 14, _ | 15, _ | 16, _ | 17, _ | 18, _ | 19, _ | 20, _ | 21, _ | 22, _ | 23, _ | 24, _ | 25, _ | 26, _
    | 27, _ | 28, _ | 29, _ | 30, _ | 31, _ => rfl
    | n + 32, hn => omega

end Sereal
