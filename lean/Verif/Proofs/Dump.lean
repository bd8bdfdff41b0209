import Verif.Model.Dump
import Verif.Spec.Dump
/-
  Lines of a text.
-/

namespace Monoasm
open Spec

theorem splitInclusive_line (l r : List Char) (h : '\n' ∉ l) :
    splitInclusive (l ++ '\n' :: r) = (l ++ ['\n']) :: splitInclusive r := by
  induction l with
  | nil => simp [splitInclusive]
  | cons c cs ih =>
    have hc : c ≠ '\n' := fun e => h (by simp [e])
    have ht : '\n' ∉ cs := fun e => h (by simp [e])
    simp [splitInclusive, hc, ih ht]

theorem splitInclusive_flatten (s : List Char) : (splitInclusive s).flatten = s := by
  induction s with
  | nil => rfl
  | cons c cs ih =>
    unfold splitInclusive
    split
    · simp [ih]
    · split
      · next h => rw [h] at ih; simp at ih; simp [← ih]
      · next h => rw [h] at ih; simpa using ih

theorem strContains_iff (n s : List Char) : strContains n s = true ↔ n <:+: s := by
  induction s with
  | nil => cases n <;> simp [strContains]
  | cons c cs ih =>
    simp only [strContains, Bool.or_eq_true, ih, List.isPrefixOf_iff_prefix]
    exact List.infix_cons_iff.symm

theorem strLen_pos (l : List Char) (h : l ≠ []) : 0 < strLen l := by
  cases l with
  | nil => exact absurd rfl h
  | cons c cs =>
    have := Char.utf8Size_pos c
    simp only [strLen, List.map_cons, List.sum_cons]; omega

/-- A phrase without a line feed is not in a line because of the line feed. -/
theorem infix_newline {n l : List Char} (hn : '\n' ∉ n) (hne : n ≠ []) (h : n <:+: l ++ ['\n']) : n <:+: l := by
  obtain ⟨a, b, e⟩ := h
  rcases List.eq_nil_or_concat b with hb | ⟨b', x, hb⟩
  · subst hb
    rcases List.eq_nil_or_concat n with hn' | ⟨n', x, hn'⟩
    · exact absurd hn' hne
    · subst hn'
      have e' : (a ++ n') ++ [x] = l ++ ['\n'] := by simpa using e
      have := (List.append_inj' e' rfl).2
      simp at this
      exact absurd (by simp [this]) hn
  · subst hb
    have e' : (a ++ n ++ b') ++ [x] = l ++ ['\n'] := by simpa using e
    exact ⟨a, b', (List.append_inj' e' rfl).1⟩

theorem keepsLine_listing {l : List Char} (h : ListingLine l) : keepsLine (l ++ ['\n']) = true := by
  have key : ∀ n : List Char, '\n' ∉ n → n ≠ [] → ¬ n <:+: l → strContains n (l ++ ['\n']) = false := by
    intro n h1 h2 h3
    rw [Bool.eq_false_iff]
    intro hc
    exact h3 (infix_newline h1 h2 ((strContains_iff _ _).1 hc))
  have hlen : strLen (l ++ ['\n']) > 1 := by
    have := strLen_pos l h.nonempty
    have e : strLen (l ++ ['\n']) = strLen l + 1 := by
      simp only [strLen, List.map_append, List.sum_append]; rfl
    omega
  simp only [keepsLine, key _ (by decide) (by decide) h.format, key _ (by decide) (by decide) h.section_,
    key _ (by decide) (by decide) h.symbol, hlen, decide_true, Bool.not_false, Bool.and_self]

theorem dumpFilter_line (l r : List Char) (h : '\n' ∉ l) :
    dumpFilter (l ++ '\n' :: r) = (if keepsLine (l ++ ['\n']) then l ++ ['\n'] else []) ++ dumpFilter r := by
  unfold dumpFilter
  rw [splitInclusive_line l r h, List.filter_cons]
  split <;> simp

theorem dumpFilter_listing (ls : List (List Char)) (h : ∀ l ∈ ls, ListingLine l) :
    dumpFilter (dumpLines ls) = dumpLines ls := by
  induction ls with
  | nil => rfl
  | cons l ls ih =>
    have hl := h l (by simp)
    have e : dumpLines (l :: ls) = l ++ '\n' :: dumpLines ls := by simp [dumpLines]
    rw [e, dumpFilter_line l _ hl.one, if_pos (keepsLine_listing hl), ih (fun x hx => h x (by simp [hx]))]
    simp

end Monoasm
