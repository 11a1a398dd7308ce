import Verif.Spec.Frame
import Verif.Lemmas.Found
import Verif.Lemmas.Events
import Verif.Model.Machine
/-
Reading looks at no other files than those that lines include.
-/
namespace Ledger
open Ledger.Parser

/-- Every file that the lines include has the property. -/
def Includes (A : Str → Prop) (src : Source) : Prop := ∀ line g, some line ∈ src → TopPart line (.includeFile g) → A g

theorem Includes.suffix {A : Str → Prop} {s t : Source} (h : Includes A t) (hs : s <:+ t) : Includes A s :=
  fun line g hl hi => h line g (hs.subset hl) hi

theorem Includes.tail {A : Str → Prop} {l : Option Str} {t : Source} (h : Includes A (l :: t)) : Includes A t :=
  h.suffix (List.suffix_cons _ _)

theorem Includes.head {A : Str → Prop} {line g : Str} {t : Source} (h : Includes A (some line :: t))
    (hi : topLine line = .includeFile g) : A g := h line g (by simp) ((topPart_iff line _).mpr hi)

theorem parseGo_agree {A : Str → Prop} {inc inc' : Str → Journal → Res Journal} (hi : ∀ f, A f → inc f = inc' f) (n : Nat) :
    ∀ (src : Source) (j : Journal), Includes A src → parseGo inc n src j = parseGo inc' n src j := by
  induction n with
  | zero => exact fun _ _ _ => rfl
  | succ n ih =>
    intro src j h
    cases src with
    | nil => rfl
    | cons l rest =>
      cases l with
      | none => rfl
      | some line =>
        rw [parseGo, parseGo]
        split
        · exact ih _ _ h.tail
        · exact ih _ _ h.tail
        · cases hx : xactDirective line rest j with
          | error e => rfl
          | ok r => exact ih _ _ (h.tail.suffix (Trace.xactDirective_suffix hx))
        · rfl
        · rename_i g hg
          rw [hi g (h.head hg)]
          cases inc' g j with
          | error e => rfl
          | ok k => exact ih _ _ h.tail
        · cases Pool.parsePriceDirective j.pool line with
          | error e => rfl
          | ok k => exact ih _ _ h.tail
        · rfl

theorem parse_agree {A : Str → Prop} {files files' : Files} (ha : ∀ f, A f → files f = files' f)
    (hc : ∀ f src, A f → files f = some src → Includes A src) (d : Nat) :
    ∀ (src : Source) (j : Journal), Includes A src → parse files d src j = parse files' d src j := by
  induction d with
  | zero => exact fun src j h => parseGo_agree (fun f hf => by rw [ha f hf]) _ src j h
  | succ d ih =>
    refine fun src j h => parseGo_agree (fun f hf => ?_) _ src j h
    funext k
    rw [← ha f hf]
    cases hs : files f with
    | none => rfl
    | some s => exact ih s k (hc f s hf hs)

/-! ### with the output -/

namespace Trace

theorem bind_congr {α β : Type} {m : Traced α} {f g : α → Traced β} (h : ∀ a, m.res = .ok a → f a = g a) : (m >>= f) = (m >>= g) := by
  rcases m with ⟨es, r⟩
  cases r with
  | error e => rfl
  | ok a =>
    have e := h a rfl
    show (⟨es ++ (f a).events, (f a).res⟩ : Traced β) = ⟨es ++ (g a).events, (g a).res⟩
    rw [e]

theorem parseGo_agree {A : Str → Prop} {inc inc' : Str → Journal → Traced Journal} (hi : ∀ f, A f → inc f = inc' f) (n : Nat) :
    ∀ (src : Source) (j : Journal), Includes A src → parseGo inc n src j = parseGo inc' n src j := by
  induction n with
  | zero => exact fun _ _ _ => rfl
  | succ n ih =>
    intro src j h
    cases src with
    | nil => rfl
    | cons l rest =>
      cases l with
      | none => rfl
      | some line =>
        rw [parseGo, parseGo]
        split
        · exact ih _ _ h.tail
        · exact ih _ _ h.tail
        · refine bind_congr fun r hx => ih _ _ (h.tail.suffix ?_)
          rw [xactDirective_res] at hx
          exact xactDirective_suffix hx
        · rfl
        · rename_i g hg
          rw [hi g (h.head hg)]
          exact bind_congr fun k _ => ih _ _ h.tail
        · exact bind_congr fun k _ => ih _ _ h.tail
        · rfl

theorem parse_agree {A : Str → Prop} {files files' : Files} (ha : ∀ f, A f → files f = files' f)
    (hc : ∀ f src, A f → files f = some src → Includes A src) (d : Nat) :
    ∀ (src : Source) (j : Journal), Includes A src → parse files d src j = parse files' d src j := by
  induction d with
  | zero => exact fun src j h => parseGo_agree (fun f hf => by rw [ha f hf]) _ src j h
  | succ d ih =>
    refine fun src j h => parseGo_agree (fun f hf => ?_) _ src j h
    funext k
    rw [← ha f hf]
    cases hs : files f with
    | none => rfl
    | some s => exact ih s k (hc f s hf hs)

end Trace

/-! ### with the pointers -/

namespace Machine

theorem readBody_suffix {i : Nat} {src rest : Source} {j j' : Jrn} (h : readBody i src j = .ok (j', rest)) : rest <:+ src := by
  induction src generalizing j with
  | nil => simp [readBody] at h; simp [h.2]
  | cons l src ih =>
    cases l with
    | none => simp [readBody] at h; rw [← h.2]; exact List.suffix_cons _ _
    | some line =>
      rw [readBody] at h
      cases hc : classify line with
      | fin => rw [hc] at h; simp at h; rw [← h.2]; exact List.suffix_cons _ _
      | note =>
        rw [hc] at h
        simp only at h
        cases h1 : parseTrailingNote line i j with
        | error e => rw [h1] at h; simp [bind, Except.bind] at h
        | ok k => rw [h1] at h; exact (ih h).trans (List.suffix_cons _ _)
      | post input =>
        rw [hc] at h
        simp only at h
        cases h1 : parsePost input i j with
        | error e => rw [h1] at h; simp [bind, Except.bind] at h
        | ok k => rw [h1] at h; exact (ih h).trans (List.suffix_cons _ _)
      | bad => rw [hc] at h; cases h

theorem xactDirective_suffix {line : Str} {src rest : Source} {j j' : Jrn}
    (h : xactDirective line src j = .ok (j', rest)) : rest <:+ src := by
  unfold xactDirective at h
  cases h1 : createXact line j with
  | error e => rw [h1] at h; simp [bind, Except.bind] at h
  | ok c =>
    rw [h1] at h
    simp only [bind, Except.bind] at h
    cases h2 : readBody c.2 src c.1 with
    | error e => rw [h2] at h; simp at h
    | ok r =>
      rw [h2] at h
      simp only at h
      cases h3 : finalizeXact c.2 r.1 with
      | error e => rw [h3] at h; simp at h
      | ok k =>
        rw [h3] at h
        simp only [Except.ok.injEq, Prod.mk.injEq] at h
        rw [← h.2]
        exact readBody_suffix h2

theorem parseGo_agree {A : Str → Prop} {inc inc' : Str → Jrn → Res Jrn} (hi : ∀ f, A f → inc f = inc' f) (n : Nat) :
    ∀ (src : Source) (j : Jrn), Includes A src → parseGo inc n src j = parseGo inc' n src j := by
  induction n with
  | zero => exact fun _ _ _ => rfl
  | succ n ih =>
    intro src j h
    cases src with
    | nil => rfl
    | cons l rest =>
      cases l with
      | none => rfl
      | some line =>
        rw [parseGo, parseGo]
        split
        · exact ih _ _ h.tail
        · exact ih _ _ h.tail
        · cases hx : xactDirective line rest j with
          | error e => rfl
          | ok r => exact ih _ _ (h.tail.suffix (xactDirective_suffix hx))
        · rfl
        · rename_i g hg
          rw [hi g (h.head hg)]
          cases inc' g j with
          | error e => rfl
          | ok k => exact ih _ _ h.tail
        · cases parsePriceDirective j.store line with
          | error e => rfl
          | ok k => exact ih _ _ h.tail
        · rfl

theorem parse_agree {A : Str → Prop} {files files' : Files} (ha : ∀ f, A f → files f = files' f)
    (hc : ∀ f src, A f → files f = some src → Includes A src) (d : Nat) :
    ∀ (src : Source) (j : Jrn), Includes A src → parse files d src j = parse files' d src j := by
  induction d with
  | zero => exact fun src j h => parseGo_agree (fun f hf => by rw [ha f hf]) _ src j h
  | succ d ih =>
    refine fun src j h => parseGo_agree (fun f hf => ?_) _ src j h
    funext k
    rw [← ha f hf]
    cases hs : files f with
    | none => rfl
    | some s => exact ih s k (hc f s hf hs)

end Machine

theorem Sought.includes {files : Files} {fs : List Str} {f : Str} {src : Source} (h : Sought files fs f) (hf : files f = some src) :
    Includes (Sought files fs) src := fun _ _ hl hi => .included h hf hl hi

end Ledger
