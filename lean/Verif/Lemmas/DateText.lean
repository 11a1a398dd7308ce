import Verif.Spec.Calendar
import Verif.Lemmas.Scan
import Mathlib.Tactic.IntervalCases
/-
Reading dates and times.
-/
namespace Ledger
open Ledger.Chrono

theorem digitChar_toNat {n : Nat} (h : n < 10) : (digitChar n).toNat = 48 + n := by
  interval_cases n <;> rfl

theorem digitChar_dig {n : Nat} (h : n < 10) : isDig (digitChar n) = true := by
  simp [isDig, digitChar_toNat h]; omega

theorem isDig_ws {c : Char} (h : isDig c = true) : isWs c = false := by
  by_contra hn
  have h2 := isWs_qty (c := c) (by simpa using hn)
  simp [Scanner.isQtyChar, h] at h2

theorem two_of_digits {a b : Char} (ha : isDig a = true) (hb : isDig b = true) (rest : Str) :
    Chrono.two (a :: b :: rest) = some ((a.toNat - 48) * 10 + (b.toNat - 48), rest) := by
  have : trimStart (a :: b :: rest) = a :: b :: rest := by simp [trimStart, List.dropWhile, isDig_ws ha]
  simp [Chrono.two, this, number, takeDigits, ha, hb, digitsVal]

theorem year_of_digits {a b c d : Char} (ha : isDig a = true) (hb : isDig b = true) (hc : isDig c = true)
    (hd : isDig d = true) (rest : Str) :
    Chrono.year (a :: b :: c :: d :: rest) =
      some ((((((a.toNat - 48) * 10 + (b.toNat - 48)) * 10 + (c.toNat - 48)) * 10 + (d.toNat - 48) : Nat) : Int), rest) := by
  have : trimStart (a :: b :: c :: d :: rest) = a :: b :: c :: d :: rest := by simp [trimStart, List.dropWhile, isDig_ws ha]
  have hm : a ≠ '-' := by rintro rfl; revert ha; decide
  have hp : a ≠ '+' := by rintro rfl; revert ha; decide
  simp only [Chrono.year, this]
  split
  · rename_i h; simp at h; exact absurd h.1 hm
  · rename_i h; simp at h; exact absurd h.1 hp
  · simp [number, takeDigits, ha, hb, hc, hd, digitsVal]

theorem valid_iff (y m d : Nat) (hy : y ≤ 9999) : Date.Valid ⟨y, m, d⟩ ↔ CalendarDay y m d := by
  have hl : Date.isLeap (y : Int) = true ↔ (y % 400 = 0 ∨ (y % 4 = 0 ∧ y % 100 ≠ 0)) := by
    simp only [Date.isLeap, Bool.or_eq_true, Bool.and_eq_true, beq_iff_eq, bne_iff_ne, ne_eq]
    omega
  unfold Date.Valid CalendarDay Date.daysIn monthLengths
  simp only
  rcases Nat.lt_or_ge m 13 with hm | hm
  · interval_cases m <;> simp [hl] <;> try omega
  · have h1 : ¬ m = 2 := by omega
    have h2 : ¬ (m = 4 ∨ m = 6 ∨ m = 9 ∨ m = 11) := by omega
    have h3 : ¬ (1 ≤ m ∧ m ≤ 12) := by omega
    rw [if_neg h1, if_neg h2, if_neg h3]
    constructor
    · omega
    · rintro ⟨n, _, h, _⟩
      rw [List.getElem?_eq_none (by simp; omega)] at h
      simp at h

theorem parseDate_digits {a b c d e f g h : Char} (ha : isDig a = true) (hb : isDig b = true) (hc : isDig c = true)
    (hd : isDig d = true) (he : isDig e = true) (hf : isDig f = true) (hg : isDig g = true) (hh : isDig h = true) :
    parseDate [a, b, c, d, '-', e, f, '-', g, h] =
      let y := (((a.toNat - 48) * 10 + (b.toNat - 48)) * 10 + (c.toNat - 48)) * 10 + (d.toNat - 48)
      let m := (e.toNat - 48) * 10 + (f.toNat - 48)
      let x := (g.toNat - 48) * 10 + (h.toNat - 48)
      if CalendarDay y m x then some ⟨y, m, x⟩ else none := by
  have dl : ∀ {c : Char}, isDig c = true → c.toNat - 48 ≤ 9 := by
    intro c hc; simp [isDig] at hc; omega
  have hy : (((a.toNat - 48) * 10 + (b.toNat - 48)) * 10 + (c.toNat - 48)) * 10 + (d.toNat - 48) ≤ 9999 := by
    have := dl ha; have := dl hb; have := dl hc; have := dl hd; omega
  simp only [parseDate, year_of_digits ha hb hc hd, lit, if_true, two_of_digits he hf, two_of_digits hg hh]
  simp only [true_and, valid_iff _ _ _ hy]

theorem parseTime_digits {a b c d e f : Char} (ha : isDig a = true) (hb : isDig b = true) (hc : isDig c = true)
    (hd : isDig d = true) (he : isDig e = true) (hf : isDig f = true) :
    parseTime [a, b, ':', c, d, ':', e, f] =
      let h := (a.toNat - 48) * 10 + (b.toNat - 48)
      let m := (c.toNat - 48) * 10 + (d.toNat - 48)
      let x := (e.toNat - 48) * 10 + (f.toNat - 48)
      if h ≤ 23 ∧ m ≤ 59 ∧ x ≤ 60 then some ⟨h, m, x⟩ else none := by
  simp only [parseTime, two_of_digits ha hb, two_of_digits hc hd, lit, if_true, two_of_digits he hf, true_and]

theorem parseDate_iso (y m d : Nat) (hy : y ≤ 9999) (hm : m ≤ 99) (hd : d ≤ 99) :
    parseDate (isoDate y m d) = if CalendarDay y m d then some ⟨y, m, d⟩ else none := by
  have e : ∀ {n : Nat}, n % 10 < 10 := fun {n} => Nat.mod_lt _ (by omega)
  have h := parseDate_digits (digitChar_dig (e (n := y / 100 / 10))) (digitChar_dig (e (n := y / 100)))
    (digitChar_dig (e (n := y / 10))) (digitChar_dig (e (n := y))) (digitChar_dig (e (n := m / 10)))
    (digitChar_dig (e (n := m))) (digitChar_dig (e (n := d / 10))) (digitChar_dig (e (n := d)))
  simp only [digitChar_toNat e, Nat.add_sub_cancel_left] at h
  have hy' : ((y / 100 / 10 % 10 * 10 + y / 100 % 10) * 10 + y / 10 % 10) * 10 + y % 10 = y := by omega
  have hm' : m / 10 % 10 * 10 + m % 10 = m := by omega
  have hd' : d / 10 % 10 * 10 + d % 10 = d := by omega
  rw [hy', hm', hd'] at h
  exact h

theorem parseTime_iso (h m s : Nat) (hh : h ≤ 99) (hm : m ≤ 99) (hs : s ≤ 99) :
    parseTime (isoTime h m s) = if h ≤ 23 ∧ m ≤ 59 ∧ s ≤ 60 then some ⟨h, m, s⟩ else none := by
  have e : ∀ {n : Nat}, n % 10 < 10 := fun {n} => Nat.mod_lt _ (by omega)
  have t := parseTime_digits (digitChar_dig (e (n := h / 10))) (digitChar_dig (e (n := h)))
    (digitChar_dig (e (n := m / 10))) (digitChar_dig (e (n := m))) (digitChar_dig (e (n := s / 10)))
    (digitChar_dig (e (n := s)))
  simp only [digitChar_toNat e, Nat.add_sub_cancel_left] at t
  have h1 : h / 10 % 10 * 10 + h % 10 = h := by omega
  have h2 : m / 10 % 10 * 10 + m % 10 = m := by omega
  have h3 : s / 10 % 10 * 10 + s % 10 = s := by omega
  rw [h1, h2, h3] at t
  exact t

/- A date text ends with a digit -/

theorem takeDigits_split (n : Nat) (s : Str) : (takeDigits n s).1 ++ (takeDigits n s).2 = s ∧ ∀ c ∈ (takeDigits n s).1, isDig c = true := by
  induction n generalizing s with
  | zero => simp [takeDigits]
  | succ n ih =>
    cases s with
    | nil => simp [takeDigits]
    | cons c cs =>
      simp only [takeDigits]
      split
      · rename_i h
        refine ⟨by simp [(ih cs).1], ?_⟩
        intro x hx
        rcases List.mem_cons.mp hx with rfl | hx
        · exact h
        · exact (ih cs).2 x hx
      · simp

/-- Consumed: `s` is `x`, ending with a digit, followed by `r`. -/
def EndsDigit (s r : Str) : Prop := ∃ x c, s = x ++ c :: r ∧ isDig c = true

theorem number_ends {n : Nat} {s r : Str} {v : Nat} (h : number n s = some (v, r)) : EndsDigit s r := by
  simp only [number] at h
  obtain ⟨h1, h2⟩ := takeDigits_split n s
  split at h
  · simp at h
  · rename_i hne
    simp at h
    rw [h.2] at h1
    have hl := List.dropLast_append_getLast hne
    refine ⟨(takeDigits n s).1.dropLast, (takeDigits n s).1.getLast hne, ?_, h2 _ (List.getLast_mem hne)⟩
    calc s = (takeDigits n s).1 ++ r := h1.symm
      _ = ((takeDigits n s).1.dropLast ++ [(takeDigits n s).1.getLast hne]) ++ r := by rw [hl]
      _ = _ := by simp

theorem suffix_ends {s t r : Str} (h : t <:+ s) (he : EndsDigit t r) : EndsDigit s r := by
  obtain ⟨a, rfl⟩ := h
  obtain ⟨x, c, rfl, hc⟩ := he
  exact ⟨a ++ x, c, by simp, hc⟩

theorem two_ends {s r : Str} {v : Nat} (h : Chrono.two s = some (v, r)) : EndsDigit s r :=
  suffix_ends (List.dropWhile_suffix _) (number_ends h)

theorem lit_suffix {c : Char} {s r : Str} (h : lit c s = some r) : r <:+ s := by
  cases s with
  | nil => simp [lit] at h
  | cons d ds =>
    simp only [lit] at h
    split at h
    · simp at h; subst h; exact List.suffix_cons _ _
    · simp at h

theorem EndsDigit.suffix {s r : Str} (h : EndsDigit s r) : r <:+ s := by
  obtain ⟨x, c, rfl, _⟩ := h
  exact ⟨x ++ [c], by simp⟩

theorem year_suffix {s r : Str} {v : Int} (h : Chrono.year s = some (v, r)) : r <:+ s := by
  have ht : trimStart s <:+ s := List.dropWhile_suffix _
  simp only [Chrono.year] at h
  split at h
  · rename_i r' he
    simp only [Option.map_eq_some_iff] at h
    obtain ⟨⟨n, r2⟩, hn, e⟩ := h
    simp at e
    rw [he] at ht
    rw [← e.2]
    exact ((number_ends hn).suffix.trans (List.suffix_cons _ _)).trans ht
  · rename_i r' he
    simp only [Option.map_eq_some_iff] at h
    obtain ⟨⟨n, r2⟩, hn, e⟩ := h
    simp at e
    rw [he] at ht
    rw [← e.2]
    exact ((number_ends hn).suffix.trans (List.suffix_cons _ _)).trans ht
  · simp only [Option.map_eq_some_iff] at h
    obtain ⟨⟨n, r2⟩, hn, e⟩ := h
    simp at e
    rw [← e.2]
    exact (number_ends hn).suffix.trans ht

/-- What chrono accepts as a date ends with a digit. -/
theorem parseDate_last {s : Str} {d : Date} (h : parseDate s = some d) : ∃ c, s.getLast? = some c ∧ isDig c = true := by
  simp only [parseDate] at h
  cases h1 : Chrono.year s with
  | none => rw [h1] at h; simp at h
  | some v =>
    obtain ⟨y, s1⟩ := v
    rw [h1] at h; simp only at h
    cases h2 : lit '-' s1 with
    | none => rw [h2] at h; simp at h
    | some s2 =>
      rw [h2] at h; simp only at h
      cases h3 : Chrono.two s2 with
      | none => rw [h3] at h; simp at h
      | some v =>
        obtain ⟨m, s3⟩ := v
        rw [h3] at h; simp only at h
        cases h4 : lit '-' s3 with
        | none => rw [h4] at h; simp at h
        | some s4 =>
          rw [h4] at h; simp only at h
          cases h5 : Chrono.two s4 with
          | none => rw [h5] at h; simp at h
          | some v =>
            obtain ⟨x, s5⟩ := v
            rw [h5] at h; simp only at h
            split at h
            · rename_i hv
              have hs : s4 <:+ s :=
                ((((lit_suffix h4).trans (two_ends h3).suffix).trans (lit_suffix h2)).trans (year_suffix h1))
              obtain ⟨z, c, e, hc⟩ := suffix_ends hs (two_ends h5)
              rw [hv.1] at e
              exact ⟨c, by rw [e]; simp, hc⟩
            · simp at h

/-- What chrono accepts as a date is one of its calendar days. -/
theorem parseDate_valid {s : Str} {d : Date} (h : parseDate s = some d) : d.Valid := by
  simp only [parseDate] at h
  split at h
  · simp at h
  split at h
  · simp at h
  split at h
  · simp at h
  split at h
  · simp at h
  split at h
  · simp at h
  split at h
  · rename_i hv; simp at h; rw [← h]; exact hv.2
  · simp at h

end Ledger
