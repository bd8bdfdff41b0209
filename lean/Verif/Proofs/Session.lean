import Verif.Spec.Session
import Verif.Proofs.Evolve
import Verif.Proofs.Host
import Verif.Proofs.Outside
/-
  Helper lemmas for C74: a compiler that works while its code runs.
-/

namespace Monoasm
open Spec X86 JitMemory

variable {base : Nat} {mem : Nat → Monoasm.Byte} {K S : List Op} {E : Effect} {F : Functions} {op : Op} {s s' : State} {d : Data} {p : Process}

theorem live_home (hA : Alloc base) (n : Nat) : ¬ Foreign base (placeW base mem K n) := by
  have hi := inv_reach base mem (K.take n)
  have h1 : cursor (reach base mem (K.take n)) (reach base mem (K.take n)).page ≤ PAGE_SIZE := hi.counter _
  have h2 := page_lt_two hi.page
  have h3 : Spec.place base mem K n = _ := here_eq hi
  refine not_foreign hA ?_ ?_ <;> rw [h3]
  · omega
  · rcases h2 with g | g <;> rw [g] at h1 ⊢ <;> omega

theorem joined_alike {j t : JitMemory} (h : SameRecords j t) (d : Data) : joined j d = joined t d := by
  obtain ⟨h1, h2, h3⟩ := h
  simp only [joined, h1, h2, h3]

theorem joined_records (j : JitMemory) (d : Data) : SameRecords (joined j d) j := ⟨rfl, rfl, rfl⟩

theorem reach_append (ops : List Op) : reach base mem (K ++ ops) = runCaught ops (reach base mem K) := by
  simp only [reach, runCaught_append]

/-- Records after a call. -/
theorem call_records (h : SameRecords p.jit (reach base mem K)) : SameRecords (p.call op).jit (reach base mem (K ++ [op])) := by
  rw [reach_append]
  exact (alike_step (A := fun _ => False) ((joined_records _ _).trans h) (fun _ => False.elim) op).1

theorem view_remember (d : Data) (m : Nat → Monoasm.Byte) {a : Nat} (h : a < 2 ^ 64) : view (remember d m) a = m a := by
  show m (BitVec.ofNat 64 a).toNat = _
  rw [BitVec.toNat_ofNat, Nat.mod_eq_of_lt h]

/-- Code pages after a call. -/
theorem call_loaded (hA : Alloc base) (h : SameRecords p.jit (reach base mem K)) (hL : Loaded base mem K p.cpu.data) :
    Loaded base mem (K ++ [op]) (p.call op).cpu.data := by
  intro a h1 h2
  have := hA.user
  show view (remember _ _) a = _
  rw [view_remember _ _ (by omega), reach_append]
  exact (alike_step (A := fun a => base ≤ a ∧ a < base + 2 * PAGE_SIZE) ((joined_records p.jit p.cpu.data).trans h)
    (fun a ha => hL a ha.1 ha.2) op).2 a ⟨h1, h2⟩

/-- One call, from the program's point of view. -/
theorem remember_call (hA : Alloc base) (hL : Loaded base mem K d) (hp : op.isPatch → ∀ a, Overwrites (reach base mem K) op a → Owns base a) :
    let d' := remember d (op.run (joined (reach base mem K) d)).state.mem
    Loaded base mem (K ++ [op]) d' ∧ ∀ x, ¬ Owns base x.toNat → d'.mem x = d.mem x := by
  have h := call_loaded (op := op) (p := ⟨⟨0, d⟩, reach base mem K⟩) hA (.refl _) hL
  refine ⟨h, fun x hx => ?_⟩
  have hi : Inv base (joined (reach base mem K) d) := (joined_records _ d).symm.inv (inv_reach base mem K)
  show (op.run _).state.mem x.toNat = _
  rw [owns_op hi hx fun h1 h2 => hx (hp h1 _ (overwrites_alike (joined_records _ d).symm h2))]
  show d.mem (BitVec.ofNat 64 x.toNat) = _
  rw [BitVec.ofNat_toNat, BitVec.setWidth_eq]

theorem session_append {K K' K'' : List Op} {c c' c''} {d d' d'' : Data} (h : Session base mem E F K c d K' c' d')
    (h' : Session base mem E F K' c' d' K'' c'' d'') : Session base mem E F K c d K'' c'' d'' := by
  induction h with
  | done => exact h'
  | step h _ ih => exact .step h (ih h')

/-! ### Growing histories -/

theorem becomes_unique {S' : List Op} (c : Smooth base mem K) (h : Becomes base mem K S) (h' : Becomes base mem K S') : S = S' := by
  induction h generalizing S' with
  | start =>
    generalize hK : ([] : List Op) = K at h'
    cases h' with
    | start => rfl
    | call => simp at hK
    | patch => simp at hK
  | @call K S op h1 h2 ih =>
    generalize hK : K ++ [op] = K' at h'
    cases h' with
    | start => simp at hK
    | call g1 g2 =>
      obtain ⟨rfl, e⟩ := List.append_inj' hK rfl
      cases e
      rw [ih c.init g1]
    | patch g1 g2 g3 g4 g5 =>
      obtain ⟨rfl, e⟩ := List.append_inj' hK rfl
      cases e
      have := patches_isPatch g4
      unfold isPatch at this
      split at this <;> first | cases this; done | cases h2
  | @patch K S op n i d h1 h2 h3 h4 h5 ih =>
    generalize hK : K ++ [op] = K' at h'
    cases h' with
    | start => simp at hK
    | call g1 g2 =>
      obtain ⟨rfl, e⟩ := List.append_inj' hK rfl
      cases e
      have := patches_isPatch h4
      unfold isPatch at this
      split at this <;> first | cases this; done | cases g2
    | @patch K' S' op' n' i' d' g1 g2 g3 g4 g5 =>
      obtain ⟨rfl, e⟩ := List.append_inj' hK rfl
      cases e
      have hS := ih c.init g1
      subst hS
      obtain ⟨j, l, k1, k2, -⟩ := h3
      obtain ⟨j', l', k1', k2', -⟩ := g3
      have hp : d = d' ∧ Spec.place base mem K n = Spec.place base mem K n' := by
        unfold PatchesAt at h4 g4
        split at h4
        · exact ⟨h4.1.symm.trans g4.1, by
            have := h4.2.1.symm.trans g4.2.1
            injection this⟩
        · exact ⟨h4.1.symm.trans g4.1, h4.2.symm.trans g4.2⟩
        · exact h4.elim
      have hn : n = n' := by
        by_cases hnn : n = n'
        · exact hnn
        · have a1 := c.init.apart k1 k1' hnn
          have a2 := c.init.patchable k1 k2
          have a3 := c.init.patchable k1' k2'
          omega
      subst hn
      rw [h2] at g2
      cases g2
      rw [hp.1]

theorem becomes_length (h : Becomes base mem K S) : S.length = K.length := by
  induction h with
  | start => rfl
  | call _ _ ih => simp [ih]
  | patch _ _ _ _ _ ih => simp [ih]

theorem take_snoc {n : Nat} (h : n ≤ K.length) : (K ++ [op]).take n = K.take n := List.take_append_of_le_length h

/-- What a longer history stands for. -/
theorem becomes_append {L S' : List Op} (h : Becomes base mem L S') {ops : List Op} (hL : L = K ++ ops) :
    ∃ S, Becomes base mem K S ∧ ∀ n i, S[n]? = some (.inst i) → S'[n]? = some (.inst i)
      ∨ ∃ k op d, K.length ≤ k ∧ L[k]? = some op ∧ PatchesAt (reach base mem (L.take k)) (Spec.place base mem L n) d op := by
  have grow : ∀ {L : List Op} {op : Op} {n : Nat}, n < L.length → (∃ k o d, K.length ≤ k ∧ L[k]? = some o
      ∧ PatchesAt (reach base mem (L.take k)) (Spec.place base mem L n) d o) →
      ∃ k o d, K.length ≤ k ∧ (L ++ [op])[k]? = some o
      ∧ PatchesAt (reach base mem ((L ++ [op]).take k)) (Spec.place base mem (L ++ [op]) n) d o := by
    rintro L op n hn ⟨k, o, d, h1, h2, h3⟩
    have hk : k < L.length := (List.getElem?_eq_some_iff.1 h2).1
    refine ⟨k, o, d, h1, by rw [List.getElem?_append_left hk]; exact h2, ?_⟩
    rw [take_snoc (by omega), place_snoc (by omega)]
    exact h3
  have cases_end : ∀ {L0 ops : List Op} {op : Op}, L0 ++ [op] = K ++ ops → ops = [] ∨ ∃ ops', L0 = K ++ ops' := by
    intro L0 ops op e
    rcases List.eq_nil_or_concat ops with rfl | ⟨ops', o, rfl⟩
    · exact .inl rfl
    · rw [List.concat_eq_append, ← List.append_assoc] at e
      exact .inr ⟨ops', (List.append_inj' e rfl).1⟩
  have same : ∀ {L S' : List Op}, Becomes base mem L S' → L = K ++ [] →
      ∃ S, Becomes base mem K S ∧ ∀ n i, S[n]? = some (.inst i) → S'[n]? = some (.inst i)
      ∨ ∃ k op d, K.length ≤ k ∧ L[k]? = some op ∧ PatchesAt (reach base mem (L.take k)) (Spec.place base mem L n) d op := by
    intro L S' h e
    rw [List.append_nil] at e
    subst e
    exact ⟨S', h, fun n i hn => .inl hn⟩
  induction h generalizing ops with
  | start =>
    obtain ⟨rfl, rfl⟩ := List.append_eq_nil_iff.1 hL.symm
    exact same .start rfl
  | @call L0 S0 op h1 h2 ih =>
    rcases cases_end hL with rfl | ⟨ops', hL'⟩
    · exact same (.call h1 h2) hL
    · obtain ⟨S, g1, g2⟩ := ih hL'
      have l1 := becomes_length h1
      have l2 := becomes_length g1
      have l3 : K.length ≤ L0.length := by rw [hL']; simp
      refine ⟨S, g1, fun n i hn => ?_⟩
      have hn' : n < S.length := (List.getElem?_eq_some_iff.1 hn).1
      rcases g2 n i hn with g | g
      · exact .inl (by rw [List.getElem?_append_left (by omega)]; exact g)
      · exact .inr (grow (by omega) g)
  | @patch L0 S0 op m j d h1 h2 h3 h4 h5 ih =>
    rcases cases_end hL with rfl | ⟨ops', hL'⟩
    · exact same (.patch h1 h2 h3 h4 h5) hL
    · obtain ⟨S, g1, g2⟩ := ih hL'
      have l1 := becomes_length h1
      have l2 := becomes_length g1
      have l3 : K.length ≤ L0.length := by rw [hL']; simp
      refine ⟨S, g1, fun n i hn => ?_⟩
      have hn' : n < S.length := (List.getElem?_eq_some_iff.1 hn).1
      rcases g2 n i hn with g | g
      · by_cases e : m = n
        · subst e
          refine .inr ⟨L0.length, op, d, l3, by simp, ?_⟩
          rw [take_snoc (Nat.le_refl _), place_snoc (by omega), List.take_length]
          exact h4
        · exact .inl (by rw [List.getElem?_append_left (by simp; omega), List.getElem?_set_ne e]; exact g)
      · exact .inr (grow (by omega) g)

/-- Labels that have an address keep it. -/
theorem complete_labels {ops : List Op} (hA : Alloc base) (h : Complete base mem (K ++ ops) S) {l a : Nat} (hl : HasAddress (reach base mem K) l a) :
    HasAddress (reach base mem (K ++ ops)) l a := by
  have c := complete_smooth h
  obtain ⟨hr1, hr2⟩ := noRaw_append.1 c.raw
  obtain ⟨hf1, hf2⟩ := keepsLabels_append.1 c.noPanic
  obtain ⟨hb1, hb2⟩ := along_append.1 (h.once l)
  rw [reach_append]
  exact bound_caught hA (hinv_reach hr1) hr2 hf2 hb2 (sound_caught (hinv_new base mem) hr1 hf1 hb1 (sound_new base mem l)) hl

end Monoasm
