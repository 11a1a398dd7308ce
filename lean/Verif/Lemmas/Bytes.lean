import Verif.Model.Bytes
import Verif.Spec.Bytes
import Verif.Lemmas.Compose
/-
Helper lemmas about UTF-8.
-/
namespace Ledger.Bytes
open Ledger Ledger.Parser

theorem toNat_ofNat_of_valid {n : Nat} (h : n.isValidChar) : (Char.ofNat n).val.toNat = n := by
  rw [Char.ofNat, dif_pos h]
  rfl

theorem ofNat_val (c : Char) : Char.ofNat c.val.toNat = c := Char.ofNat_toNat c

theorem char_bound (c : Char) : c.val.toNat < 55296 ∨ (57343 < c.val.toNat ∧ c.val.toNat < 1114112) := c.valid

theorem byte_lt (b : Byte) : b.toNat < 256 := b.toNat_lt

theorem ofNat_toNat_lt {n : Nat} (h : n < 256) : (UInt8.ofNat n).toNat = n := by
  rw [UInt8.toNat_ofNat']; exact Nat.mod_eq_of_lt h

theorem lt_lit {b : Byte} {n : Nat} (h : n < 256) : (b < UInt8.ofNat n) ↔ b.toNat < n := by
  rw [UInt8.lt_iff_toNat_lt, ofNat_toNat_lt h]

theorem lit_le {b : Byte} {n : Nat} (h : n < 256) : (UInt8.ofNat n ≤ b) ↔ n ≤ b.toNat := by
  rw [UInt8.le_iff_toNat_le, ofNat_toNat_lt h]

theorem le_lit {b : Byte} {n : Nat} (h : n < 256) : (b ≤ UInt8.ofNat n) ↔ b.toNat ≤ n := by
  rw [UInt8.le_iff_toNat_le, ofNat_toNat_lt h]

theorem eq_lit {b : Byte} {n : Nat} (h : n < 256) : (b = UInt8.ofNat n) ↔ b.toNat = n := by
  rw [← UInt8.toNat_inj, ofNat_toNat_lt h]

/-- A continuation byte, in numbers. -/
theorem isCont_iff (b : Byte) : isCont b = true ↔ 128 ≤ b.toNat ∧ b.toNat ≤ 191 := by
  simp only [isCont, Bool.and_eq_true, decide_eq_true_eq]
  exact and_congr (lit_le (n := 128) (by decide)) (le_lit (n := 191) (by decide))

theorem one_iff (a : Byte) : a < 0x80 ↔ a.toNat < 128 := lt_lit (n := 128) (by decide)

theorem two_iff (a : Byte) : (0xC2 ≤ a && a ≤ 0xDF) = true ↔ 194 ≤ a.toNat ∧ a.toNat ≤ 223 := by
  simp only [Bool.and_eq_true, decide_eq_true_eq]
  exact and_congr (lit_le (n := 194) (by decide)) (le_lit (n := 223) (by decide))

theorem three_iff (a b : Byte) : ((a = 0xE0 && 0xA0 ≤ b && b ≤ 0xBF) || (0xE1 ≤ a && a ≤ 0xEC && isCont b) ||
      (a = 0xED && 0x80 ≤ b && b ≤ 0x9F) || (0xEE ≤ a && a ≤ 0xEF && isCont b)) = true ↔
    (a.toNat = 224 ∧ 160 ≤ b.toNat ∧ b.toNat ≤ 191) ∨ (225 ≤ a.toNat ∧ a.toNat ≤ 236 ∧ 128 ≤ b.toNat ∧ b.toNat ≤ 191) ∨
    (a.toNat = 237 ∧ 128 ≤ b.toNat ∧ b.toNat ≤ 159) ∨ (238 ≤ a.toNat ∧ a.toNat ≤ 239 ∧ 128 ≤ b.toNat ∧ b.toNat ≤ 191) := by
  simp only [Bool.or_eq_true, Bool.and_eq_true, decide_eq_true_eq, isCont_iff, and_assoc, or_assoc]
  have e1 : a = 0xE0 ↔ a.toNat = 224 := eq_lit (n := 224) (by decide)
  have e2 : a = 0xED ↔ a.toNat = 237 := eq_lit (n := 237) (by decide)
  have e3 : 0xA0 ≤ b ↔ 160 ≤ b.toNat := lit_le (n := 160) (by decide)
  have e4 : b ≤ 0xBF ↔ b.toNat ≤ 191 := le_lit (n := 191) (by decide)
  have e5 : 0x80 ≤ b ↔ 128 ≤ b.toNat := lit_le (n := 128) (by decide)
  have e6 : b ≤ 0x9F ↔ b.toNat ≤ 159 := le_lit (n := 159) (by decide)
  have e7 : 0xE1 ≤ a ↔ 225 ≤ a.toNat := lit_le (n := 225) (by decide)
  have e8 : a ≤ 0xEC ↔ a.toNat ≤ 236 := le_lit (n := 236) (by decide)
  have e9 : 0xEE ≤ a ↔ 238 ≤ a.toNat := lit_le (n := 238) (by decide)
  have e10 : a ≤ 0xEF ↔ a.toNat ≤ 239 := le_lit (n := 239) (by decide)
  rw [e1, e2, e3, e4, e5, e6, e7, e8, e9, e10]

theorem four_iff (a b : Byte) : ((a = 0xF0 && 0x90 ≤ b && b ≤ 0xBF) || (0xF1 ≤ a && a ≤ 0xF3 && isCont b) ||
      (a = 0xF4 && 0x80 ≤ b && b ≤ 0x8F)) = true ↔
    (a.toNat = 240 ∧ 144 ≤ b.toNat ∧ b.toNat ≤ 191) ∨ (241 ≤ a.toNat ∧ a.toNat ≤ 243 ∧ 128 ≤ b.toNat ∧ b.toNat ≤ 191) ∨
    (a.toNat = 244 ∧ 128 ≤ b.toNat ∧ b.toNat ≤ 143) := by
  simp only [Bool.or_eq_true, Bool.and_eq_true, decide_eq_true_eq, isCont_iff, and_assoc, or_assoc]
  have e1 : a = 0xF0 ↔ a.toNat = 240 := eq_lit (n := 240) (by decide)
  have e2 : a = 0xF4 ↔ a.toNat = 244 := eq_lit (n := 244) (by decide)
  have e3 : 0x90 ≤ b ↔ 144 ≤ b.toNat := lit_le (n := 144) (by decide)
  have e4 : b ≤ 0xBF ↔ b.toNat ≤ 191 := le_lit (n := 191) (by decide)
  have e5 : 0x80 ≤ b ↔ 128 ≤ b.toNat := lit_le (n := 128) (by decide)
  have e6 : b ≤ 0x8F ↔ b.toNat ≤ 143 := le_lit (n := 143) (by decide)
  have e7 : 0xF1 ≤ a ↔ 241 ≤ a.toNat := lit_le (n := 241) (by decide)
  have e8 : a ≤ 0xF3 ↔ a.toNat ≤ 243 := le_lit (n := 243) (by decide)
  rw [e1, e2, e3, e4, e5, e6, e7, e8]

/-- Decoding undoes the encoding of a character. -/
theorem decode_encode (c : Char) (rest : List Byte) :
    decode (String.utf8EncodeChar c ++ rest) = (decode rest).map (c :: ·) := by
  have hb := char_bound c
  have hc := ofNat_val c
  generalize hv : c.val.toNat = v at hb hc
  rw [String.utf8EncodeChar]
  simp only [hv]
  split
  · have k1 : (UInt8.ofNat v).toNat = v := ofNat_toNat_lt (by omega)
    generalize UInt8.ofNat v = a at k1
    rw [List.singleton_append, decode.eq_def]
    simp only
    rw [if_pos ((one_iff a).mpr (by omega)), k1, hc]
  split
  · have k1 : (UInt8.ofNat (v / 64 % 32 + 192)).toNat = v / 64 % 32 + 192 := ofNat_toNat_lt (by omega)
    have k2 : (UInt8.ofNat (v % 64 + 128)).toNat = v % 64 + 128 := ofNat_toNat_lt (by omega)
    generalize UInt8.ofNat (v / 64 % 32 + 192) = a at k1
    generalize UInt8.ofNat (v % 64 + 128) = b at k2
    rw [List.cons_append, List.cons_append, List.nil_append, decode.eq_def]
    simp only
    rw [if_neg (by rw [one_iff]; omega), if_pos (by rw [two_iff]; omega), if_pos (by rw [isCont_iff]; omega),
      show (a.toNat - 192) * 64 + (b.toNat - 128) = v by omega, hc]
  split
  · have k1 : (UInt8.ofNat (v / 4096 % 16 + 224)).toNat = v / 4096 % 16 + 224 := ofNat_toNat_lt (by omega)
    have k2 : (UInt8.ofNat (v / 64 % 64 + 128)).toNat = v / 64 % 64 + 128 := ofNat_toNat_lt (by omega)
    have k3 : (UInt8.ofNat (v % 64 + 128)).toNat = v % 64 + 128 := ofNat_toNat_lt (by omega)
    generalize UInt8.ofNat (v / 4096 % 16 + 224) = a at k1
    generalize UInt8.ofNat (v / 64 % 64 + 128) = b at k2
    generalize UInt8.ofNat (v % 64 + 128) = d at k3
    rw [List.cons_append, List.cons_append, List.cons_append, List.nil_append, decode.eq_def]
    simp only
    rw [if_neg (by rw [one_iff]; omega), if_neg (by rw [two_iff]; omega), if_pos (by rw [three_iff]; omega),
      if_pos (by rw [isCont_iff]; omega),
      show (a.toNat - 224) * 4096 + (b.toNat - 128) * 64 + (d.toNat - 128) = v by omega, hc]
  · have k1 : (UInt8.ofNat (v / 262144 % 8 + 240)).toNat = v / 262144 % 8 + 240 := ofNat_toNat_lt (by omega)
    have k2 : (UInt8.ofNat (v / 4096 % 64 + 128)).toNat = v / 4096 % 64 + 128 := ofNat_toNat_lt (by omega)
    have k3 : (UInt8.ofNat (v / 64 % 64 + 128)).toNat = v / 64 % 64 + 128 := ofNat_toNat_lt (by omega)
    have k4 : (UInt8.ofNat (v % 64 + 128)).toNat = v % 64 + 128 := ofNat_toNat_lt (by omega)
    generalize UInt8.ofNat (v / 262144 % 8 + 240) = a at k1
    generalize UInt8.ofNat (v / 4096 % 64 + 128) = b at k2
    generalize UInt8.ofNat (v / 64 % 64 + 128) = d at k3
    generalize UInt8.ofNat (v % 64 + 128) = e at k4
    rw [List.cons_append, List.cons_append, List.cons_append, List.cons_append, List.nil_append, decode.eq_def]
    simp only
    rw [if_neg (by rw [one_iff]; omega), if_neg (by rw [two_iff]; omega), if_neg (by rw [three_iff]; omega),
      if_pos (by rw [four_iff]; omega), if_pos (by rw [Bool.and_eq_true, isCont_iff, isCont_iff]; omega),
      show (a.toNat - 240) * 262144 + (b.toNat - 128) * 4096 + (d.toNat - 128) * 64 + (e.toNat - 128) = v by omega, hc]

theorem decode_utf8 (text : Str) : decode (utf8 text) = some text := by
  induction text with
  | nil => rfl
  | cons c cs ih => rw [utf8, List.flatMap_cons, decode_encode, ← utf8, ih]; rfl

theorem byte_of {b : Byte} {n : Nat} (h : b.toNat = n) : UInt8.ofNat n = b := by rw [← h, UInt8.ofNat_toNat]

/-- The encoding of what was decoded is what was decoded from. -/
theorem utf8_decode (n : Nat) : ∀ (bs : List Byte), bs.length ≤ n → ∀ {text : Str}, decode bs = some text → utf8 text = bs := by
  induction n with
  | zero =>
    intro bs hl text h
    rw [List.eq_nil_of_length_eq_zero (Nat.le_zero.mp hl)] at h ⊢
    injection h with h
    rw [← h]; rfl
  | succ n ih =>
    intro bs hl text h
    rw [decode.eq_def] at h
    split at h
    · injection h with h
      rw [← h]; rfl
    rename_i a as
    rw [List.length_cons] at hl
    split at h
    · rename_i h1
      obtain ⟨t, h2, h3⟩ := Option.map_eq_some_iff.mp h
      rw [one_iff] at h1
      have hv := toNat_ofNat_of_valid (n := a.toNat) (Or.inl (by omega))
      rw [← h3, utf8, List.flatMap_cons, ← utf8, ih as (by omega) h2, String.utf8EncodeChar]
      simp only [hv]
      rw [if_pos (by omega), UInt8.ofNat_toNat]
      rfl
    rename_i n1
    rw [one_iff] at n1
    split at h
    · cases h
    rename_i b bs
    rw [List.length_cons] at hl
    split at h
    · rename_i h1
      rw [two_iff] at h1
      split at h
      case isFalse => cases h
      rename_i h4
      rw [isCont_iff] at h4
      obtain ⟨t, h2, h3⟩ := Option.map_eq_some_iff.mp h
      obtain ⟨v, ev⟩ : ∃ v, v = (a.toNat - 0xC0) * 64 + (b.toNat - 0x80) := ⟨_, rfl⟩
      rw [← ev] at h3
      have hv := toNat_ofNat_of_valid (n := v) (by unfold Nat.isValidChar; omega)
      rw [← h3, utf8, List.flatMap_cons, ← utf8, ih bs (by omega) h2, String.utf8EncodeChar]
      simp only [hv]
      rw [if_neg (by omega), if_pos (by omega), byte_of (b := a) (by omega), byte_of (b := b) (by omega)]
      rfl
    rename_i n2
    rw [two_iff] at n2
    split at h
    · cases h
    rename_i c cs
    rw [List.length_cons] at hl
    split at h
    · rename_i h1
      rw [three_iff] at h1
      split at h
      case isFalse => cases h
      rename_i h4
      rw [isCont_iff] at h4
      obtain ⟨t, h2, h3⟩ := Option.map_eq_some_iff.mp h
      obtain ⟨v, ev⟩ : ∃ v, v = (a.toNat - 0xE0) * 4096 + (b.toNat - 0x80) * 64 + (c.toNat - 0x80) := ⟨_, rfl⟩
      rw [← ev] at h3
      have hv := toNat_ofNat_of_valid (n := v) (by unfold Nat.isValidChar; omega)
      rw [← h3, utf8, List.flatMap_cons, ← utf8, ih cs (by omega) h2, String.utf8EncodeChar]
      simp only [hv]
      rw [if_neg (by omega), if_neg (by omega), if_pos (by omega), byte_of (b := a) (by omega), byte_of (b := b) (by omega),
        byte_of (b := c) (by omega)]
      rfl
    split at h
    · cases h
    rename_i d ds
    rw [List.length_cons] at hl
    split at h
    case isFalse => cases h
    rename_i h1
    rw [four_iff] at h1
    split at h
    case isFalse => cases h
    rename_i h4
    rw [Bool.and_eq_true, isCont_iff, isCont_iff] at h4
    obtain ⟨t, h2, h3⟩ := Option.map_eq_some_iff.mp h
    obtain ⟨v, ev⟩ : ∃ v, v = (a.toNat - 0xF0) * 262144 + (b.toNat - 0x80) * 4096 +
      (c.toNat - 0x80) * 64 + (d.toNat - 0x80) := ⟨_, rfl⟩
    rw [← ev] at h3
    have hv := toNat_ofNat_of_valid (n := v) (by unfold Nat.isValidChar; omega)
    rw [← h3, utf8, List.flatMap_cons, ← utf8, ih ds (by omega) h2, String.utf8EncodeChar]
    simp only [hv]
    rw [if_neg (by omega), if_neg (by omega), if_neg (by omega), byte_of (b := a) (by omega), byte_of (b := b) (by omega),
      byte_of (b := c) (by omega), byte_of (b := d) (by omega)]
    rfl

/-- Decoding is the inverse of encoding. -/
theorem decode_iff (bs : List Byte) (text : Str) : decode bs = some text ↔ utf8 text = bs :=
  ⟨utf8_decode bs.length bs le_rfl, fun h => h ▸ decode_utf8 text⟩

/-! ### Lines -/

theorem utf8_append (a b : Str) : utf8 (a ++ b) = utf8 a ++ utf8 b := List.flatMap_append

theorem utf8_newline : utf8 ['\n'] = [10] := by decide

/-- Only the newline has the byte 10 in its encoding. -/
theorem newline_encode {c : Char} (h : c ≠ '\n') : (10 : Byte) ∉ String.utf8EncodeChar c := by
  have hv : c.val.toNat ≠ 10 := by
    intro e
    apply h
    rw [← ofNat_val c, e]
  have key : ∀ n : Nat, n ≠ 10 → n < 256 → (10 : Byte) ≠ UInt8.ofNat n := by
    intro n hn hl e
    apply hn
    rw [← ofNat_toNat_lt hl, ← e]
    rfl
  have hb := char_bound c
  rw [String.utf8EncodeChar]
  generalize c.val.toNat = v at hv hb ⊢
  split
  · simpa using key v hv (by omega)
  split
  · simp only [List.mem_cons, List.not_mem_nil, or_false, not_or]
    exact ⟨key _ (by omega) (by omega), key _ (by omega) (by omega)⟩
  split
  · simp only [List.mem_cons, List.not_mem_nil, or_false, not_or]
    exact ⟨key _ (by omega) (by omega), key _ (by omega) (by omega), key _ (by omega) (by omega)⟩
  · simp only [List.mem_cons, List.not_mem_nil, or_false, not_or]
    exact ⟨key _ (by omega) (by omega), key _ (by omega) (by omega), key _ (by omega) (by omega), key _ (by omega) (by omega)⟩

/-- Bytes that are no newline go to the front of the first line. -/
theorem byteLines_front {w : List Byte} (h : (10 : Byte) ∉ w) (hw : w ≠ []) (bs : List Byte) :
    byteLines (w ++ bs) = match byteLines bs with
      | [] => [w]
      | l :: ls => (w ++ l) :: ls := by
  induction w with
  | nil => exact absurd rfl hw
  | cons b w ih =>
    rw [List.cons_append, byteLines, if_neg (fun e => h (by rw [e]; exact List.mem_cons_self))]
    cases w with
    | nil =>
      rw [List.nil_append]
      cases byteLines bs <;> rfl
    | cons b2 w =>
      rw [ih (fun e => h (List.mem_cons_of_mem _ e)) (by simp)]
      cases byteLines bs <;> rfl

theorem encode_ne_nil (c : Char) : String.utf8EncodeChar c ≠ [] := by
  rw [String.utf8EncodeChar]
  split
  · simp
  split
  · simp
  split <;> simp

/-- The lines of the encoding are the encodings of the lines. -/
theorem byteLines_utf8 (text : Str) : byteLines (utf8 text) = (readLines text).map utf8 := by
  induction text with
  | nil => rfl
  | cons c cs ih =>
    rw [utf8, List.flatMap_cons, ← utf8, readLines]
    split
    · rename_i h
      rw [h, show String.utf8EncodeChar '\n' = [10] by decide, List.singleton_append, byteLines, if_pos rfl, ih, List.map_cons,
        utf8_newline]
    · rename_i h
      rw [byteLines_front (newline_encode h) (encode_ne_nil c), ih]
      cases readLines cs with
      | nil => simp [utf8]
      | cons l ls => simp [utf8]

theorem byteSource_utf8 (text : Str) : byteSource (utf8 text) = textSource text := by
  rw [byteSource, byteLines_utf8, textSource, List.map_map]
  exact List.map_congr_left (fun l _ => decode_utf8 l)

theorem byteLines_flatten (bs : List Byte) : (byteLines bs).flatten = bs := by
  induction bs with
  | nil => rfl
  | cons b bs ih =>
    rw [byteLines]
    split
    · rename_i h
      rw [List.flatten_cons, ih, h]; rfl
    · revert ih
      cases byteLines bs with
      | nil => intro ih; rw [← ih]; rfl
      | cons l ls => intro ih; rw [← ih]; rfl

/-- After a newline a new line begins. -/
theorem byteLines_append (a b : List Byte) : byteLines (a ++ 10 :: b) = byteLines (a ++ [10]) ++ byteLines b := by
  induction a with
  | nil => rfl
  | cons x a ih =>
    rw [List.cons_append, List.cons_append, byteLines, byteLines]
    split
    · rw [ih]; rfl
    · rw [ih]
      have : byteLines (a ++ [10]) ≠ [] := by
        intro e
        have := byteLines_flatten (a ++ [10])
        rw [e] at this
        simp at this
      cases h : byteLines (a ++ [10]) with
      | nil => exact absurd h this
      | cons l ls => rfl

theorem byteLines_single {w : List Byte} (h : (10 : Byte) ∉ w) : byteLines (w ++ [10]) = [w ++ [10]] := by
  cases w with
  | nil => rfl
  | cons b w => rw [byteLines_front h (by simp)]; rfl

/-- If every line can be read, the file is the encoding of a text. -/
theorem byteSource_all {bs : List Byte} (h : ∀ l ∈ byteSource bs, l ≠ none) : ∃ text, utf8 text = bs := by
  rw [← byteLines_flatten bs]
  rw [byteSource] at h
  generalize byteLines bs = ls at h
  induction ls with
  | nil => exact ⟨[], rfl⟩
  | cons l ls ih =>
    obtain ⟨t, ht⟩ := ih (fun x hx => h x (List.mem_cons_of_mem _ hx))
    obtain ⟨t2, ht2⟩ := Option.ne_none_iff_exists'.mp (h (decode l) List.mem_cons_self)
    exact ⟨t2 ++ t, by rw [utf8_append, ht, (decode_iff l t2).mp ht2]; rfl⟩

/-- The lines of a file are what the reader delivers. -/
theorem fileLines_iff (bs : List Byte) (ls : List (List Byte)) : FileLines bs ls ↔ byteLines bs = ls := by
  have key : ∀ {bs : List Byte} {ls}, FileLines bs ls → byteLines bs = ls := by
    intro bs ls h
    induction h with
    | empty => rfl
    | last hw h =>
      rename_i w
      have := byteLines_front h hw []
      rwa [List.append_nil] at this
    | line h _ ih => rw [byteLines_append, byteLines_single h, ih]; rfl
  refine ⟨key, ?_⟩
  have ex : ∀ n, ∀ bs : List Byte, bs.length ≤ n → ∃ ls, FileLines bs ls := by
    intro n
    induction n with
    | zero =>
      intro bs hl
      rw [List.eq_nil_of_length_eq_zero (Nat.le_zero.mp hl)]
      exact ⟨_, .empty⟩
    | succ n ih =>
      intro bs hl
      by_cases hm : 10 ∈ bs
      · obtain ⟨w, rest, rfl, hw⟩ := List.eq_append_cons_of_mem hm
        rw [List.length_append, List.length_cons] at hl
        obtain ⟨ls, h⟩ := ih rest (by omega)
        exact ⟨_, .line hw h⟩
      · by_cases h0 : bs = []
        · rw [h0]; exact ⟨_, .empty⟩
        · exact ⟨_, .last h0 hm⟩
  rintro rfl
  obtain ⟨ls, h⟩ := ex bs.length bs le_rfl
  rw [key h]
  exact h

/-- No character begins with such a byte. -/
theorem decode_high {b : Byte} (hb : 0xF5 ≤ b) (l : List Byte) : decode (b :: l) = none := by
  have h : 245 ≤ b.toNat := (lit_le (n := 245) (by decide)).mp hb
  rw [decode.eq_def]
  simp only
  rw [if_neg (by rw [one_iff]; omega)]
  split
  · rfl
  rw [if_neg (by rw [two_iff]; omega)]
  split
  · rfl
  rw [if_neg (by rw [three_iff]; omega)]
  split
  · rfl
  rw [if_neg (by rw [four_iff]; omega)]

theorem decode_none (l : List Byte) : decode l = none ↔ Damaged l := by
  refine ⟨fun h text e => ?_, fun h => ?_⟩
  · rw [(decode_iff l text).mpr e] at h; cases h
  · cases hd : decode l with
    | none => rfl
    | some text => exact absurd ((decode_iff l text).mp hd) (h text)

theorem lineReads_iff (l : List Byte) (o : Option Str) : LineReads l o ↔ decode l = o := by
  constructor
  · rintro (⟨text, h, rfl⟩ | ⟨h, rfl⟩)
    · exact (decode_iff l text).mpr h
    · exact (decode_none l).mpr h
  · rintro rfl
    cases hd : decode l with
    | none => exact Or.inr ⟨(decode_none l).mp hd, rfl⟩
    | some text => exact Or.inl ⟨text, (decode_iff l text).mp hd, rfl⟩

theorem bytesRead_iff (bs : List Byte) (src : Source) : BytesRead bs src ↔ byteSource bs = src := by
  have key : ∀ (ls : List (List Byte)) (src : Source), List.Forall₂ LineReads ls src ↔ ls.map decode = src := by
    intro ls
    induction ls with
    | nil => intro src; rw [List.forall₂_nil_left_iff]; exact eq_comm
    | cons l ls ih =>
      intro src
      rw [List.forall₂_cons_left_iff]
      constructor
      · rintro ⟨o, os, h1, h2, rfl⟩
        rw [List.map_cons, (lineReads_iff l o).mp h1, (ih os).mp h2]
      · rintro rfl
        exact ⟨decode l, ls.map decode, (lineReads_iff l _).mpr rfl, (ih _).mpr rfl, rfl⟩
  constructor
  · rintro ⟨ls, h1, h2⟩
    rw [byteSource, (fileLines_iff bs ls).mp h1, (key ls src).mp h2]
  · rintro rfl
    exact ⟨byteLines bs, (fileLines_iff bs _).mpr rfl, (key _ _).mpr rfl⟩

/-- Lines before, a damaged line and lines after. -/
theorem byteSource_damaged {a : Str} (ha : LineTerminated a) {w : List Byte} (h10 : (10 : Byte) ∉ w) (hd : Damaged (w ++ [10]))
    (rest : List Byte) : byteSource (utf8 a ++ (w ++ 10 :: rest)) = textSource a ++ none :: byteSource rest := by
  have h1 : byteSource (w ++ 10 :: rest) = none :: byteSource rest := by
    rw [byteSource, byteLines_append, byteLines_single h10, List.map_append, List.map_cons, (decode_none _).mpr hd]
    rfl
  rcases ha with rfl | ⟨x, rfl⟩
  · exact h1
  · rw [← h1, ← byteSource_utf8, utf8_append, utf8_newline, List.append_assoc, List.singleton_append, byteSource, byteLines_append,
      List.map_append]
    rfl

/-- Lines before, a readable line and lines after. -/
theorem byteSource_line {a : Str} (ha : LineTerminated a) {t : Str} (hn : '\n' ∉ t) (rest : List Byte) :
    byteSource (utf8 a ++ (utf8 t ++ 10 :: rest)) = textSource a ++ some (t ++ ['\n']) :: byteSource rest := by
  have h10 : (10 : Byte) ∉ utf8 t := by
    intro h
    obtain ⟨c, hc, h⟩ := List.mem_flatMap.mp h
    exact newline_encode (fun e => hn (e ▸ hc)) h
  have h1 : byteSource (utf8 t ++ 10 :: rest) = some (t ++ ['\n']) :: byteSource rest := by
    rw [byteSource, byteLines_append, byteLines_single h10, List.map_append, List.map_cons,
      (decode_iff _ (t ++ ['\n'])).mpr (by rw [utf8_append, utf8_newline])]
    rfl
  rcases ha with rfl | ⟨x, rfl⟩
  · exact h1
  · rw [← h1, ← byteSource_utf8, utf8_append, utf8_newline, List.append_assoc, List.singleton_append, byteSource, byteLines_append,
      List.map_append]
    rfl

/-- The same at the end of a file. -/
theorem byteSource_damaged_end {a : Str} (ha : LineTerminated a) {w : List Byte} (h10 : (10 : Byte) ∉ w) (hd : Damaged w) :
    byteSource (utf8 a ++ w) = textSource a ++ [none] := by
  have hw : w ≠ [] := fun e => hd [] (by rw [e]; rfl)
  have h1 : byteSource w = [none] := by
    have := byteLines_front h10 hw []
    rw [List.append_nil] at this
    rw [byteSource, this]
    simp only [byteLines, List.map_cons, List.map_nil, (decode_none _).mpr hd]
  rcases ha with rfl | ⟨x, rfl⟩
  · exact h1
  · rw [← h1, ← byteSource_utf8, utf8_append, utf8_newline, List.append_assoc, List.singleton_append, byteSource, byteLines_append,
      List.map_append]
    rfl

/-- A line that cannot be read ends a transaction as an empty line does. -/
theorem readBody_damaged (i : Nat) (body rest : Source) (hb : Text body) (he : ∀ l, some l ∈ body → ¬ EndLine l) (j : Journal) :
    readBody i (body ++ none :: rest) j = readBody i (body ++ some ['\n'] :: rest) j := by
  induction body generalizing j with
  | nil => rfl
  | cons l body ih =>
    cases l with
    | none => exact absurd List.mem_cons_self hb
    | some line =>
      have ih := ih (fun h => hb (List.mem_cons_of_mem _ h)) (fun l hl => he l (List.mem_cons_of_mem _ hl))
      rw [List.cons_append, List.cons_append, readBody, readBody]
      simp only [ih]
      cases hc : classify line with
      | fin => exact absurd ((classify_fin line).mp hc) (he line List.mem_cons_self)
      | note => rfl
      | post input => rfl
      | bad => rfl

theorem parse_damaged (files : Files) (depth : Nat) {s body rest : Source} {line : Str} (hs : Text s) (ht : AtTop s) (hl : HeaderLine line)
    (hb : Text body) (he : ∀ l, some l ∈ body → ¬ EndLine l) (j : Journal) :
    parse files depth (s ++ some line :: (body ++ none :: rest)) j =
      parse files depth (s ++ some line :: (body ++ some ['\n'] :: rest)) j := by
  rw [parse_append files depth s _ j hs ht, parse_append files depth s _ j hs ht]
  have key : ∀ inc j, parseWith inc (some line :: (body ++ none :: rest)) j =
      parseWith inc (some line :: (body ++ some ['\n'] :: rest)) j := by
    intro inc j
    rw [parseWith_cons, parseWith_cons, (topLine_xact line).mpr hl]
    simp only [xactDirective, readBody_damaged _ body rest hb he]
  cases depth with
  | zero => simp only [parse, key]
  | succ d => simp only [parse, key]

end Ledger.Bytes
