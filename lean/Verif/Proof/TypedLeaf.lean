import Verif.Proof.TypedGram
import Verif.Proof.TypedTags
/-
Scalars decoded into typed variables.
-/
namespace Sereal

theorem int64_ofInt_toInt (x : Int) : (Int64.ofInt x).toInt = x.bmod (2 ^ 64) := by
  simp [Int64.toInt_ofInt, Int64.size]

theorem bmod_eq (x : Int) (m : Nat) : x.bmod m = if x % m < (m + 1) / 2 then x % m else x % m - m := by
  rw [Int.bmod_def]

theorem IntK.conv_wraps (k : IntK) (x : Int64) {z : Int} (h : (2 ^ 64 : Int) ∣ x.toInt - z) :
    Wraps k.width (-2 ^ (k.width - 1)) z (k.conv x).toInt := by
  unfold IntK.conv
  rw [int64_ofInt_toInt]
  generalize x.toInt = y at *
  unfold Wraps
  cases k <;> simp only [IntK.width, IntK.bits, Nat.reducePow, Int.reducePow, bmod_eq, Nat.reduceSub] at * <;>
    (split <;> split <;> omega)

theorem int64_toUInt64_toNat (x : Int64) : (x.toUInt64.toNat : Int) = x.toInt % 2 ^ 64 := by
  rw [show x.toUInt64.toNat = x.toBitVec.toNat from rfl, show x.toInt = x.toBitVec.toInt from rfl,
    BitVec.toInt_eq_toNat_bmod]
  have := x.toBitVec.isLt
  simp only [bmod_eq, Nat.reducePow, Int.reducePow] at *
  split <;> omega

theorem UintK.conv_wraps (k : UintK) (x : Int64) {z : Int} (h : (2 ^ 64 : Int) ∣ x.toInt - z) :
    Wraps k.width 0 z (k.conv x.toUInt64).toNat := by
  unfold UintK.conv
  have e := int64_toUInt64_toNat x
  rw [UInt64.toNat_ofNat']
  generalize x.toUInt64.toNat = n at *
  generalize x.toInt = y at *
  unfold Wraps
  cases k <;> simp only [UintK.width, UintK.bits, Nat.reducePow, Int.reducePow] at * <;> omega

theorem assign_rw (v : TVal) (s : DState) : assign .rw v s = (.ok v, s) := rfl

/-- The UNDEF case without PerlCompat. -/
def undefPlain (ty : Ty) (cur : TVal) (acc : Acc) : D TVal :=
  match ty with
  | .ptr _ | .map _ | .slice _ => assign acc .zero
  | _ => pure cur

theorem undefTyped_plain {cfg : DCfg} (h : cfg.perlCompat = false) (b : Bool) (ty : Ty) (cur : TVal) (acc : Acc) :
    undefTyped cfg b ty cur acc = undefPlain ty cur acc := by
  unfold undefTyped
  rw [if_neg (by rw [h]; simp), if_neg (by rw [h]; simp)]
  rfl

section
variable {c : ViewCfg} {tc : TCfg} {S S' : Val → Tree → Prop} {ty : Ty} {cur v0 : TVal}

theorem setInt_comp {z : Int} (h : Fills c tc S ty cur (.int z) v0) (hty : ty ≠ .iface) {x : Int64}
    (hx : (2 ^ 64 : Int) ∣ x.toInt - z) (s : DState) :
    ∃ v, setInt ty .rw x s = (.ok v, s) ∧ Fills c tc S' ty cur (.int z) v := by
  cases h with
  | iface => exact absurd rfl hty
  | ifaceNil => exact absurd rfl hty
  | int => exact ⟨_, rfl, .int (IntK.conv_wraps _ _ hx)⟩
  | uint => exact ⟨_, rfl, .uint (UintK.conv_wraps _ _ hx)⟩
  | undefPtr _ h => rcases h with h | h <;> cases h
  | undefMap _ h => rcases h with h | h <;> cases h
  | undefSlice _ h => rcases h with h | h <;> cases h
  | undef _ h => rcases h with h | h <;> cases h

theorem setFloat32_comp {u : UInt32} (h : Fills c tc S ty cur (.f32 u) v0) (hty : ty ≠ .iface) (s : DState) :
    ∃ v, setFloat tc ty .rw (tc.widen u) s = (.ok v, s) ∧ Fills c tc S' ty cur (.f32 u) v := by
  cases h with
  | iface => exact absurd rfl hty
  | ifaceNil => exact absurd rfl hty
  | f32f32 => exact ⟨_, rfl, .f32f32⟩
  | f64f32 => exact ⟨_, rfl, .f64f32⟩
  | undefPtr _ h => rcases h with h | h <;> cases h
  | undefMap _ h => rcases h with h | h <;> cases h
  | undefSlice _ h => rcases h with h | h <;> cases h
  | undef _ h => rcases h with h | h <;> cases h

theorem setFloat64_comp {u : UInt64} (h : Fills c tc S ty cur (.f64 u) v0) (hty : ty ≠ .iface) (s : DState) :
    ∃ v, setFloat tc ty .rw u s = (.ok v, s) ∧ Fills c tc S' ty cur (.f64 u) v := by
  cases h with
  | iface => exact absurd rfl hty
  | ifaceNil => exact absurd rfl hty
  | f32f64 => exact ⟨_, rfl, .f32f64⟩
  | f64f64 => exact ⟨_, rfl, .f64f64⟩
  | undefPtr _ h => rcases h with h | h <;> cases h
  | undefMap _ h => rcases h with h | h <;> cases h
  | undefSlice _ h => rcases h with h | h <;> cases h
  | undef _ h => rcases h with h | h <;> cases h

theorem setBool_comp {b : Bool} (h : Fills c tc S ty cur (.bool b) v0) (hty : ty ≠ .iface) (s : DState) :
    ∃ v, setBool ty .rw b s = (.ok v, s) ∧ Fills c tc S' ty cur (.bool b) v := by
  cases h with
  | iface => exact absurd rfl hty
  | ifaceNil => exact absurd rfl hty
  | bool => exact ⟨_, rfl, .bool⟩
  | undefPtr _ h => rcases h with h | h <;> cases h
  | undefMap _ h => rcases h with h | h <;> cases h
  | undefSlice _ h => rcases h with h | h <;> cases h
  | undef _ h => rcases h with h | h <;> cases h

theorem setString_comp {b : Bytes} (h : Fills c tc S ty cur (.str b) v0) (hty : ty ≠ .iface) (s : DState) :
    ∃ v, setString ty .rw b s = (.ok v, s) ∧ Fills c tc S' ty cur (.str b) v := by
  cases h with
  | iface => exact absurd rfl hty
  | ifaceNil => exact absurd rfl hty
  | str => exact ⟨_, rfl, .str⟩
  | undefPtr _ h => rcases h with h | h <;> cases h
  | undefMap _ h => rcases h with h | h <;> cases h
  | undefSlice _ h => rcases h with h | h <;> cases h
  | undef _ h => rcases h with h | h <;> cases h

theorem overlay_eq_pour (vs : List TVal) (s : Bytes) : overlay vs s = pour vs s := by
  induction vs generalizing s with
  | nil => simp [overlay, pour]
  | cons v vs ih =>
    cases s with
    | nil => simp [overlay, pour]
    | cons b bs => simp only [overlay, ih, pour]; simp

theorem setBinary_comp {b : Bytes} (h : Fills c tc S ty cur (.bin b) v0) (hty : ty ≠ .iface) (s : DState) :
    ∃ v, setBinary ty .rw cur b s = (.ok v, s) ∧ Fills c tc S' ty cur (.bin b) v := by
  cases h with
  | iface => exact absurd rfl hty
  | ifaceNil => exact absurd rfl hty
  | strBin => exact ⟨_, rfl, .strBin⟩
  | bytesNil => exact ⟨_, rfl, .bytesNil⟩
  | @bytes _ vs =>
    refine ⟨.slice (overlay vs b), rfl, ?_⟩
    rw [overlay_eq_pour]; exact .bytes
  | @byteArr n =>
    refine ⟨.multi (overlay (cur.parts n) b), rfl, ?_⟩
    rw [overlay_eq_pour]; exact .byteArr
  | undefPtr _ h => rcases h with h | h <;> cases h
  | undefMap _ h => rcases h with h | h <;> cases h
  | undefSlice _ h => rcases h with h | h <;> cases h
  | undef _ h => rcases h with h | h <;> cases h

theorem undef_comp {cfg : DCfg} {t : Tree} (hc : c.perlCompat = cfg.perlCompat) (b : Bool)
    (ht : t = .undef ∨ t = .cundef) (h : Fills c tc S ty cur t v0) (hty : ty ≠ .iface) (s : DState) :
    ∃ v, undefTyped cfg b ty cur .rw s = (.ok v, s) ∧ Fills c tc S' ty cur t v := by
  have key : ∀ v, cfg.perlCompat = false → Fills c tc S' ty cur t v →
      undefPlain ty cur .rw s = (.ok v, s) →
      ∃ v, undefTyped cfg b ty cur .rw s = (.ok v, s) ∧ Fills c tc S' ty cur t v := by
    intro v hpc hf hr
    exact ⟨v, by rw [undefTyped_plain hpc]; exact hr, hf⟩
  rcases ht with rfl | rfl <;> cases h with
  | iface => exact absurd rfl hty
  | ifaceNil => exact absurd rfl hty
  | undefPtr hp h => exact key _ (by rw [← hc]; exact hp) (.undefPtr hp h) rfl
  | undefMap hp h => exact key _ (by rw [← hc]; exact hp) (.undefMap hp h) rfl
  | undefSlice hp h => exact key _ (by rw [← hc]; exact hp) (.undefSlice hp h) rfl
  | undef hp h h1 h2 h3 h4 =>
    refine key _ (by rw [← hc]; exact hp) (.undef hp h h1 h2 h3 h4) ?_
    cases ty <;> first | rfl | exact absurd rfl (h2 _) | exact absurd rfl (h3 _) | exact absurd rfl (h4 _)

end

end Sereal
