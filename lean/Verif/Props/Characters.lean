import Verif.Spec.Characters
import Verif.Lemmas.Scan
import Verif.Model.Quantity
/-
C114: which characters are white space and which are digits, and what trimming leaves.
-/
namespace Ledger

theorem char_eq_of_toNat {c d : Char} (h : c.toNat = d.toNat) : c = d := by
  have := congrArg Char.ofNat h
  rwa [Char.ofNat_toNat, Char.ofNat_toNat] at this

/-- C114: what the other specifications call white space are exactly these characters. -/
theorem C114_white_space (c : Char) : isWs c = true ↔ c ∈ whiteSpaces := by
  constructor
  · intro h
    have hn : c.toNat ∈ whiteSpaces.map Char.toNat := by
      simp only [isWs, Bool.or_eq_true, Bool.and_eq_true, beq_iff_eq, decide_eq_true_eq] at h
      have : whiteSpaces.map Char.toNat = [9, 10, 11, 12, 13, 32, 0x85, 0xA0, 0x1680, 0x2000, 0x2001, 0x2002, 0x2003, 0x2004, 0x2005,
        0x2006, 0x2007, 0x2008, 0x2009, 0x200A, 0x2028, 0x2029, 0x202F, 0x205F, 0x3000] := by decide
      rw [this]
      simp only [List.mem_cons, List.not_mem_nil, or_false]
      omega
    obtain ⟨d, hd, e⟩ := List.mem_map.mp hn
    rw [← char_eq_of_toNat e]; exact hd
  · intro h
    have : ∀ d ∈ whiteSpaces, isWs d = true := by decide
    exact this c h

/-- C114: digits are exactly these characters, no others that Unicode calls decimal numbers, and their place is their value. -/
theorem C114_digits (c : Char) : (isDig c = true ↔ c ∈ digits) ∧ ∀ n, digits[n]? = some c ↔ n < 10 ∧ isDig c = true ∧ Dec.digitVal c = n := by
  have h1 : isDig c = true ↔ c ∈ digits := by
    constructor
    · intro h
      have hn : c.toNat ∈ digits.map Char.toNat := by
        simp only [isDig, Bool.and_eq_true, decide_eq_true_eq] at h
        have : digits.map Char.toNat = [48, 49, 50, 51, 52, 53, 54, 55, 56, 57] := by decide
        rw [this]
        simp only [List.mem_cons, List.not_mem_nil, or_false]
        omega
      obtain ⟨d, hd, e⟩ := List.mem_map.mp hn
      rw [← char_eq_of_toNat e]; exact hd
    · intro h
      have : ∀ d ∈ digits, isDig d = true := by decide
      exact this c h
  have hv : ∀ n < 10, ∀ d ∈ digits, digits[n]? = some d ↔ Dec.digitVal d = n := by decide
  refine ⟨h1, fun n => ⟨fun h => ?_, fun ⟨h2, h3, h4⟩ => ?_⟩⟩
  · have hn : n < 10 := by
      by_contra hn
      rw [List.getElem?_eq_none (by change 10 ≤ n; omega)] at h
      cases h
    have hm : c ∈ digits := List.mem_of_getElem? h
    exact ⟨hn, h1.mpr hm, (hv n hn c hm).mp h⟩
  · exact (hv n h2 c (h1.mp h3)).mpr h4

theorem onlySpace_iff (s : Str) : OnlySpace s ↔ ∀ c ∈ s, isWs c = true :=
  forall₂_congr fun c _ => (C114_white_space c).symm

theorem dropWhile_split (s : Str) : ∃ l, s = l ++ s.dropWhile isWs ∧ (∀ c ∈ l, isWs c = true) ∧
    ∀ c, (s.dropWhile isWs).head? = some c → isWs c = false := by
  refine ⟨s.takeWhile isWs, List.takeWhile_append_dropWhile.symm, fun c hc => List.all_eq_true.mp (List.all_takeWhile (p := isWs) (l := s)) c hc, ?_⟩
  exact fun c hc => trimStart_head s c hc

/-- C114: trimming removes the white space at both ends, all of it and nothing else. -/
theorem C114_trim (s t : Str) : trim s = t ↔ ∃ l r, s = l ++ t ++ r ∧ OnlySpace l ∧ OnlySpace r ∧ BareEnds t := by
  have key : ∃ l r, s = l ++ trim s ++ r ∧ OnlySpace l ∧ OnlySpace r ∧ BareEnds (trim s) := by
    obtain ⟨l, h1, h2, h3⟩ := dropWhile_split s
    obtain ⟨r, g1, g2, g3⟩ := dropWhile_split (s.dropWhile isWs).reverse
    have e : s.dropWhile isWs = trim s ++ r.reverse := by
      have := congrArg List.reverse g1
      rw [List.reverse_reverse, List.reverse_append] at this
      exact this
    refine ⟨l, r.reverse, ?_, (onlySpace_iff _).mpr h2, (onlySpace_iff _).mpr (fun c hc => g2 c (List.mem_reverse.mp hc)), ?_, ?_⟩
    · rw [List.append_assoc, ← e]; exact h1
    · intro c hc
      rw [← C114_white_space, Bool.not_eq_true]
      refine h3 c ?_
      rw [e, List.head?_append, hc]; rfl
    · intro c hc
      rw [← C114_white_space, Bool.not_eq_true]
      refine g3 c ?_
      rw [← List.getLast?_reverse]
      exact hc
  constructor
  · rintro rfl; exact key
  · rintro ⟨l, r, e, hl, hr, ht1, ht2⟩
    rw [onlySpace_iff] at hl hr
    have ht1 : ∀ c, t.head? = some c → isWs c = false := fun c hc => by
      rw [← Bool.not_eq_true, C114_white_space]; exact ht1 c hc
    have ht2 : ∀ c, t.getLast? = some c → isWs c = false := fun c hc => by
      rw [← Bool.not_eq_true, C114_white_space]; exact ht2 c hc
    cases t with
    | nil =>
      have hb : ∀ c ∈ s, isWs c = true := by
        intro c hc
        rw [e, List.append_nil] at hc
        exact (List.mem_append.mp hc).elim (hl c) (hr c)
      unfold trim
      rw [trimStart_allBlank hb]; rfl
    | cons a t =>
      have h1 : trimStart s = a :: t ++ r := by
        rw [e, List.append_assoc, trimStart_blank hl]
        exact trimStart_id (fun c hc => ht1 c (by simpa using hc))
      unfold trim
      rw [h1]
      unfold trimEnd
      rw [List.reverse_append]
      have h2 := trimStart_blank (sp := r.reverse) (fun c hc => hr c (List.mem_reverse.mp hc)) (a :: t).reverse
      have h3 : trimStart (a :: t).reverse = (a :: t).reverse := trimStart_id (fun c hc => ht2 c (by rwa [List.head?_reverse] at hc))
      unfold trimStart at h2 h3
      rw [h2, h3, List.reverse_reverse]

example : trim (str " \t note \n") = str "note" ∧ isWs '\u200b' = false ∧ isDig '\u0663' = false := by decide

end Ledger
