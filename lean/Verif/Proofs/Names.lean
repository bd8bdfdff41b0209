import Verif.Proofs.Parse
import Verif.Spec.Names
/-
  Helper lemmas for C40: `make_ascii_lowercase` and equality up to case.
-/

namespace Monoasm
open Spec

theorem toLower_cases (c : Char) : (c.toLower = c ∧ c ∉ capitals) ∨ (c, c.toLower) ∈ capitals.zip smalls := by
  by_cases h : 65 ≤ c.toNat ∧ c.toNat ≤ 90
  · right
    have key : ∀ k, k < 26 → ((Char.ofNat (65 + k)), (Char.ofNat (65 + k)).toLower) ∈ capitals.zip smalls := by
      decide +kernel
    have := key (c.toNat - 65) (by omega)
    rwa [show 65 + (c.toNat - 65) = c.toNat by omega, Char.ofNat_toNat] at this
  · left
    constructor
    · unfold Char.toLower
      rw [dif_neg]
      intro ⟨h1, h2⟩
      exact h ⟨h1, h2⟩
    · intro hc
      have : ∀ d ∈ capitals, 65 ≤ d.toNat ∧ d.toNat ≤ 90 := by decide +kernel
      exact h (this c hc)

theorem sameLetter_iff {c d : Char} (hd : d ∉ capitals) : SameLetter c d ↔ c.toLower = d := by
  have uniq : ∀ p ∈ capitals.zip smalls, ∀ q ∈ capitals.zip smalls, p.1 = q.1 → p.2 = q.2 := by decide +kernel
  have hcap : ∀ {c d : Char}, (c, d) ∈ capitals.zip smalls → c ∈ capitals := fun h => (List.of_mem_zip h).1
  constructor
  · rintro (rfl | h | h)
    · rcases toLower_cases c with h | h
      · exact h.1
      · exact absurd (hcap h) hd
    · rcases toLower_cases c with h' | h'
      · exact absurd (hcap h) h'.2
      · exact uniq _ h' _ h rfl
    · exact absurd (hcap h) hd
  · rintro rfl
    rcases toLower_cases c with h | h
    · exact .inl h.1.symm
    · exact .inr (.inl h)

theorem sameWord_iff {s t : String} (ht : ∀ c ∈ t.toList, c ∉ capitals) : SameWord s t ↔ lowercase s = t := by
  have key : ∀ l m : List Char, (∀ c ∈ m, c ∉ capitals) →
      ((l.length = m.length ∧ ∀ p ∈ l.zip m, SameLetter p.1 p.2) ↔ l.map Char.toLower = m) := by
    intro l
    induction l with
    | nil => intro m hm; cases m <;> simp
    | cons c l ih =>
      intro m hm
      cases m with
      | nil => simp
      | cons d m =>
        simp only [List.forall_mem_cons] at hm
        have := ih m hm.2
        simp only [List.length_cons, List.zip_cons_cons, List.forall_mem_cons, List.map_cons, List.cons.injEq,
          ← sameLetter_iff hm.1, ← this, Nat.add_right_cancel_iff]
        constructor
        · rintro ⟨a, b, c⟩; exact ⟨b, a, c⟩
        · rintro ⟨a, b, c⟩; exact ⟨b, a, c⟩
  unfold SameWord
  rw [key _ _ ht]
  unfold lowercase
  constructor
  · intro h; rw [h]; simp
  · rintro rfl; simp

theorem regName_iff {s n} : RegName s n ↔ ∃ name, (name, n) ∈ registerTable ∧ SameWord s name := by
  have hlow : ∀ p ∈ registerTable, ∀ c ∈ p.1.toList, c ∉ capitals := by decide +kernel
  have h1 : ∀ n : BitVec 8, ∀ name, (regNames[n.toNat]? = some name ∨ (name = "cl" ∧ n = 1)) ↔ (name, n) ∈ registerTable := by
    intro n name
    constructor
    · rintro (h | ⟨rfl, rfl⟩)
      · have key : ∀ n : BitVec 8, ∀ name ∈ regNames[n.toNat]?, (name, n) ∈ registerTable := by decide +kernel
        exact key n name h
      · decide
    · intro h
      have key : ∀ p ∈ registerTable, regNames[p.2.toNat]? = some p.1 ∨ (p.1 = "cl" ∧ p.2 = 1) := by decide +kernel
      exact key _ h
  constructor
  · intro h
    refine ⟨lowercase s, (h1 _ _).1 h, (sameWord_iff (hlow _ ((h1 _ _).1 h))).2 rfl⟩
  · rintro ⟨name, h2, h3⟩
    rw [sameWord_iff (hlow _ h2)] at h3
    subst h3
    exact (h1 _ _).2 h2

theorem sameLetter_lower {c d : Char} : SameLetter c d ↔ c.toLower = d.toLower := by
  have inj : ∀ p ∈ capitals.zip smalls, ∀ q ∈ capitals.zip smalls, p.2 = q.2 → p.1 = q.1 := by decide +kernel
  have uniq : ∀ p ∈ capitals.zip smalls, ∀ q ∈ capitals.zip smalls, p.1 = q.1 → p.2 = q.2 := by decide +kernel
  have hsm : ∀ p ∈ capitals.zip smalls, p.2 ∉ capitals := by decide +kernel
  have hcap : ∀ {c d : Char}, (c, d) ∈ capitals.zip smalls → c ∈ capitals := fun h => (List.of_mem_zip h).1
  have low : ∀ {c d}, (c, d) ∈ capitals.zip smalls → c.toLower = d ∧ d.toLower = d := by
    intro c d h
    constructor
    · rcases toLower_cases c with h' | h'
      · exact absurd (hcap h) h'.2
      · exact uniq _ h' _ h rfl
    · rcases toLower_cases d with h' | h'
      · exact h'.1
      · exact absurd (hcap h') (hsm _ h)
  constructor
  · rintro (rfl | h | h)
    · rfl
    · rw [(low h).1, (low h).2]
    · rw [(low h).1, (low h).2]
  · intro h
    rcases toLower_cases c with ⟨h1, _⟩ | h1 <;> rcases toLower_cases d with ⟨h2, _⟩ | h2
    · exact .inl (by rw [← h1, h, h2])
    · exact .inr (.inr (by rwa [← h, h1] at h2))
    · exact .inr (.inl (by rwa [h, h2] at h1))
    · left
      rw [h] at h1
      exact inj _ h1 _ h2 rfl

theorem sameWord_trans {s t name : String} (h1 : SameWord s name) (h2 : SameWord t name) : SameWord s t := by
  have key : ∀ l m k : List Char, l.length = k.length → (∀ p ∈ l.zip k, SameLetter p.1 p.2) → m.length = k.length →
      (∀ p ∈ m.zip k, SameLetter p.1 p.2) → ∀ p ∈ l.zip m, SameLetter p.1 p.2 := by
    intro l
    induction l with
    | nil => intro m k _ _ _ _ p hp; cases hp
    | cons c l ih =>
      intro m k h1 h2 h3 h4
      cases m with
      | nil => intro p hp; cases hp
      | cons d m =>
        cases k with
        | nil => cases h1
        | cons e k =>
          simp only [List.zip_cons_cons, List.forall_mem_cons, List.length_cons, Nat.add_right_cancel_iff] at *
          refine ⟨?_, ih m k h1 h2.2 h3 h4.2⟩
          rw [sameLetter_lower]
          rw [sameLetter_lower] at h2 h4
          rw [h2.1, h4.1]
  exact ⟨h1.1.trans h2.1.symm, key _ _ _ h1.1 h1.2 h2.1 h2.2⟩

end Monoasm
