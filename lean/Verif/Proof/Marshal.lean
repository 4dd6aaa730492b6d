import Verif.Model.Encode
import Verif.Proof.Header
/-
The frame of the documents produced by MarshalWithHeader.
-/
namespace Sereal

/-- The header of a document of version `cfg.ver`. -/
def encHeader (cfg : ECfg) (suffix : Bytes) (doctype : Nat) : Bytes :=
  magicFor cfg.ver ++ (UInt8.ofNat cfg.ver ||| (UInt8.ofNat doctype <<< 4)) :: suffix

/-- Does MarshalWithHeader compress a body of this length? -/
def compresses (cfg : ECfg) (n : Nat) : Prop :=
  cfg.compressionThreshold = 0 ∨ (n : Int) ≥ cfg.compressionThreshold

theorem recover_ok {r : Res Bytes} {doc : Bytes}
    (h : (match r with | .error (.panic s) => .error (.err (.msg s)) | r => r) = Except.ok doc) :
    r = .ok doc := by
  match r, h with
  | .ok d, h => exact h
  | .error (.err _), h => cases h
  | .error (.panic _), h => cases h
  | .error (.crash _), h => cases h
  | .error .fuel, h => cases h

theorem marshal_ok {cfg : ECfg} {cs : Codecs} {inp : Heap} {header : Option Val} {v : Val} {doc : Bytes} :
    marshalWithHeader cfg cs inp header v = .ok doc ↔
      ∃ suffix body, headerSuffix cfg inp header = .ok suffix ∧
        encodeAfter cfg inp (if cfg.ver = 1 then encHeader cfg suffix serealRaw else [0]) v = .ok body ∧
        ((cfg.compression = none ∧ doc = encHeader cfg suffix serealRaw ++ body) ∨
         (∃ c, cfg.compression = some c ∧ ¬ compresses cfg body.length ∧
            doc = encHeader cfg suffix serealRaw ++ body) ∨
         (∃ c z dt, cfg.compression = some c ∧ compresses cfg body.length ∧ compress cs c body = .ok z ∧
            compressionDoctype cfg.ver c = .ok dt ∧ doc = encHeader cfg suffix dt ++ z)) := by
  have key : marshalWithHeader cfg cs inp header v = .ok doc ↔ marshalRaw cfg cs inp header v = .ok doc := by
    constructor
    · exact recover_ok
    · intro h; unfold marshalWithHeader; rw [h]
  rw [key]
  unfold marshalRaw
  simp only []
  constructor
  · intro h
    obtain ⟨suffix, h1, h⟩ := Res.bind_ok.1 h
    obtain ⟨body, h2, h⟩ := Res.bind_ok.1 h
    refine ⟨suffix, body, h1, h2, ?_⟩
    cases hc : cfg.compression with
    | none => rw [hc] at h; left; exact ⟨rfl, by cases h; rfl⟩
    | some c =>
      rw [hc] at h
      right
      dsimp only at h
      split at h
      · rename_i hcc
        obtain ⟨z, h3, h⟩ := Res.bind_ok.1 h
        obtain ⟨dt, h4, h⟩ := Res.bind_ok.1 h
        right
        exact ⟨c, z, dt, rfl, hcc, h3, h4, by cases h; rfl⟩
      · rename_i hcc
        left
        exact ⟨c, rfl, hcc, by cases h; rfl⟩
  · rintro ⟨suffix, body, h1, h2, h⟩
    refine Res.bind_ok.2 ⟨suffix, h1, Res.bind_ok.2 ⟨body, h2, ?_⟩⟩
    rcases h with ⟨hc, rfl⟩ | ⟨c, hc, hn, rfl⟩ | ⟨c, z, dt, hc, hy, h3, h4, rfl⟩
    · rw [hc]; rfl
    · unfold compresses at hn; rw [hc]; dsimp only; rw [if_neg hn]; rfl
    · unfold compresses at hy; rw [hc]; dsimp only; rw [if_pos hy]
      exact Res.bind_ok.2 ⟨z, h3, Res.bind_ok.2 ⟨dt, h4, rfl⟩⟩

theorem ECfg.ver_range {cfg : ECfg} (h : cfg.version ≤ 3) : 1 ≤ cfg.ver ∧ cfg.ver ≤ 3 := by
  unfold ECfg.ver; split <;> omega

theorem magicFor_eq {v : Nat} (h : v ≤ 3) : magicFor v = magicOf v := by
  have : v = 0 ∨ v = 1 ∨ v = 2 ∨ v = 3 := by omega
  rcases this with rfl | rfl | rfl | rfl <;> decide

theorem typeByte_eq {v d : Nat} (hv : v < 16) (hd : d < 16) :
    UInt8.ofNat v ||| (UInt8.ofNat d <<< 4) = UInt8.ofNat (v + 16 * d) := by
  have h : ∀ v d : Fin 16, UInt8.ofNat v ||| (UInt8.ofNat d <<< 4) = UInt8.ofNat (v + 16 * d) := by decide
  exact h ⟨v, hv⟩ ⟨d, hd⟩

theorem encHeader_eq {cfg : ECfg} {suffix : Bytes} {dt : Nat} (h : cfg.version ≤ 3) (hd : dt < 16) :
    encHeader cfg suffix dt = magicOf cfg.ver ++ UInt8.ofNat (cfg.ver + 16 * dt) :: suffix := by
  have := ECfg.ver_range h
  unfold encHeader
  rw [magicFor_eq this.2, typeByte_eq (by omega) hd]

/-- The header after the version byte: its length and its contents. -/
theorem headerSuffix_ok {cfg : ECfg} {inp : Heap} {header : Option Val} {suffix : Bytes}
    (h : headerSuffix cfg inp header = .ok suffix) :
    (suffix = varint 0 ∧ (header = none ∨ cfg.ver < 2)) ∨
    ∃ hv w, header = some hv ∧ 2 ≤ cfg.ver ∧ encodeAfter cfg inp [1] hv = .ok w ∧
      suffix = varint (1 + w.length) ++ 1 :: w := by
  have h0 : varint 0 = [0] := by rw [varint_lt (by omega)]; rfl
  unfold headerSuffix at h
  split at h
  · split at h
    · rename_i hv hver
      obtain ⟨w, h1, h2⟩ := Res.bind_ok.1 h
      right
      exact ⟨hv, w, rfl, hver, h1, by cases h2; rfl⟩
    · rename_i hv hver
      left; cases h
      exact ⟨h0.symm, Or.inr (by omega)⟩
  · left; cases h; exact ⟨h0.symm, Or.inl rfl⟩

theorem headerSuffix_split {cfg : ECfg} {inp : Heap} {header : Option Val} {suffix : Bytes}
    (h : headerSuffix cfg inp header = .ok suffix) :
    ∃ w, suffix = varint w.length ++ w ∧ (header = none → w = []) := by
  rcases headerSuffix_ok h with ⟨rfl, _⟩ | ⟨hv, w, rfl, _, _, rfl⟩
  · exact ⟨[], by simp, fun _ => rfl⟩
  · exact ⟨1 :: w, by simp [Nat.add_comm], fun h => by cases h⟩

theorem compressionDoctype_lt {v : Nat} {c : Compressor} {dt : Nat}
    (h : compressionDoctype v c = .ok dt) :
    (dt = 1 ∧ v = 1 ∧ ∃ i, c = .snappy i) ∨ (dt = 2 ∧ v ≠ 1 ∧ ∃ i, c = .snappy i) ∨
      (dt = 3 ∧ 3 ≤ v ∧ ∃ l, c = .zlib l) := by
  unfold compressionDoctype at h
  split at h
  · split at h
    · cases h
    · split at h
      · left; cases h; exact ⟨rfl, by assumption, _, rfl⟩
      · right; left; cases h; exact ⟨rfl, by assumption, _, rfl⟩
  · split at h
    · cases h
    · right; right; cases h; exact ⟨rfl, by omega, _, rfl⟩
  · cases h

end Sereal
