import Verif.Spec.Evolve
import Verif.Proofs.Trial
import Verif.Proofs.Retarget
/-
  Helper lemmas for C65: programs that are patched while they grow.
-/

namespace Monoasm
open Spec X86 JitMemory

variable {base : Nat} {mem : Nat → Monoasm.Byte} {K S : List Op} {n m : Nat} {i j : Inst Val Nat} {l d : DestLabel} {op : Op}

/-- A history without panics whose statements are accepted. -/
structure Smooth (base : Nat) (mem : Nat → Monoasm.Byte) (K : List Op) : Prop where
  run : runOps K (JitMemory.new base mem) = .ok () (reach base mem K)
  raw : NoRaw K
  accepted : ∀ i, .inst i ∈ K → Accepted i

theorem Smooth.noPanic (c : Smooth base mem K) : KeepsLabels (JitMemory.new base mem) K := keepsLabels_runOps c.run

theorem Smooth.finishes (c : Smooth base mem K) {k : Nat} (h : K[k]? = some .finalize) : Finishes base mem K k :=
  finishes_at (noFinalizePanic_runOps c.run) h

theorem Smooth.init (c : Smooth base mem (K ++ [op])) : Smooth base mem K := by
  obtain ⟨s, h, -⟩ := runOps_append.1 c.run
  refine ⟨?_, fun o ho => c.raw o (by simp [ho]), fun i hi => c.accepted i (by simp [hi])⟩
  rw [h, show reach base mem K = s from runCaught_of_ok h]

theorem Smooth.at (c : Smooth base mem K) (hn : K[n]? = some op) :
    ∃ s', op.run (reach base mem (K.take n)) = .ok () s' ∧ reach base mem (K.take (n + 1)) = s' := by
  have hr := c.run
  have e := split_at hn
  have hr' : runOps (K.take n ++ ([op] ++ K.drop (n + 1))) (JitMemory.new base mem) = .ok () (reach base mem K) := by
    rw [← List.append_assoc, ← e]; exact hr
  obtain ⟨s1, h1, h2⟩ := runOps_append.1 hr'
  obtain ⟨s2, h3, -⟩ := runOps_append.1 h2
  rw [show reach base mem (K.take n) = s1 from runCaught_of_ok h1]
  have h4 : op.run s1 = .ok () s2 := by
    simp only [runOps] at h3
    obtain ⟨_, s3, h5, h6⟩ := bind_ok h3
    cases h6
    exact h5
  refine ⟨s2, h4, ?_⟩
  rw [take_at hn]
  simp only [reach, runCaught_append]
  rw [runCaught_of_ok h1, runCaught_of_ok h3]

theorem Smooth.runs (c : Smooth base mem K) (hn : K[n]? = some (.inst i)) : ∃ s', Runs i (reach base mem (K.take n)) s' := by
  obtain ⟨m, hm⟩ := c.accepted i (List.mem_of_getElem? hn)
  obtain ⟨s', h1, -⟩ := c.at hn
  simp only [Op.run, hm] at h1
  exact ⟨s', m, hm, h1⟩

theorem Smooth.page (c : Smooth base mem K) (hn : K[n]? = some (.inst i)) :
    (reach base mem (K.take (n + 1))).page = (reach base mem (K.take n)).page := by
  obtain ⟨s', h⟩ := c.runs hn
  obtain ⟨its, -, hr⟩ := runs_items h
  rw [runs_reach hn h]
  exact hr.page

theorem Smooth.mono (c : Smooth base mem K) (h : n ≤ m) (p) :
    cursor (reach base mem (K.take n)) p ≤ cursor (reach base mem (K.take m)) p := by
  rw [reach_between h]
  have hf := (keepsLabels_at c.noPanic n).2
  rw [← List.take_append_drop (m - n) (K.drop n)] at hf
  exact cursor_caught (hinv_take (base := base) (mem := mem) c.raw n) (noRaw_take (noRaw_take c.raw n).2 _).1 (keepsLabels_append.1 hf).1 p

/-- The code of statements is apart. -/
theorem Smooth.apart (c : Smooth base mem K) (hn : K[n]? = some (.inst i)) (hm : K[m]? = some (.inst j)) (h : n ≠ m) :
    Spec.place base mem K (n + 1) ≤ Spec.place base mem K m ∨ Spec.place base mem K (m + 1) ≤ Spec.place base mem K n := by
  have key : ∀ {n m : Nat} {i j : Inst Val Nat}, K[n]? = some (.inst i) → K[m]? = some (.inst j) → n < m →
      Spec.place base mem K (n + 1) ≤ Spec.place base mem K m ∨ Spec.place base mem K (m + 1) ≤ Spec.place base mem K n := by
    intro n m i j hn hm h
    have hp1 := c.page hn
    have hp2 := c.page hm
    have i0 := inv_reach base mem (K.take n)
    have i1 := inv_reach base mem (K.take (n + 1))
    have i2 := inv_reach base mem (K.take m)
    have i3 := inv_reach base mem (K.take (m + 1))
    have c1 := i1.counter (reach base mem (K.take n)).page
    have c3 := i3.counter (reach base mem (K.take m)).page
    have hmono := c.mono (show n + 1 ≤ m from h) (reach base mem (K.take n)).page
    simp only [Spec.place, here_eq i0, here_eq i1, here_eq i2, here_eq i3, hp1, hp2]
    have g0 := i0.page
    have g2 := i2.page
    by_cases hpp : (reach base mem (K.take n)).page = (reach base mem (K.take m)).page
    · rw [hpp] at hmono ⊢
      left; omega
    · simp only [Spec.cursor] at *
      rcases page_lt_two g0 with g0 | g0 <;> rcases page_lt_two g2 with g2 | g2 <;> simp only [g0, g2] at * <;>
        first | exact absurd rfl hpp | (rw [PAGE_SIZE_eq] at *; omega)
  rcases Nat.lt_or_gt_of_ne h with h | h
  · exact key hn hm h
  · exact (key hm hn h).symm

theorem Smooth.patchable (c : Smooth base mem K) (hn : K[n]? = some (.inst i)) (hp : Patchable i l) :
    Spec.place base mem K (n + 1) = Spec.place base mem K n + 5 := by
  obtain ⟨s1, h⟩ := c.runs hn
  rw [Spec.place, runs_reach hn h]
  exact (patchable_runs (hinv_take (base := base) (mem := mem) c.raw n) hp h).1

/-! ### Longer histories -/

theorem reach_snoc : reach base mem ((K ++ [op]).take K.length) = reach base mem K := by rw [List.take_left']; rfl

theorem place_snoc (h : n ≤ K.length) : Spec.place base mem (K ++ [op]) n = Spec.place base mem K n := by
  rw [Spec.place, Spec.place, List.take_append_of_le_length h]

theorem spares_snoc {a b : Nat} (h : n ≤ K.length) (hs : SparesRange a b (reach base mem (K.take n)) (K.drop n))
    (ho : ∀ x, a ≤ x → x < a + b → ¬ Overwrites (reach base mem K) op x) :
    SparesRange a b (reach base mem ((K ++ [op]).take n)) ((K ++ [op]).drop n) := by
  rw [List.take_append_of_le_length h, List.drop_append_of_le_length h]
  refine along_append.2 ⟨hs, ?_, trivial⟩
  rw [← reach_take]
  exact ho

/-- Where a patch writes. -/
theorem patches_overwrites {s : JitMemory} {a x : Nat} (hp : PatchesAt s a d op) (h : Overwrites s op x) : a + 1 ≤ x ∧ x < a + 5 := by
  unfold PatchesAt at hp
  split at hp
  · obtain ⟨y, h1, h2⟩ := h
    have := hp.2.1
    cases this.symm.trans h1
    exact h2
  · rw [← hp.2]; exact h
  · exact hp.elim

theorem patches_isPatch {s : JitMemory} {a : Nat} (hp : PatchesAt s a d op) : isPatch op = true := by
  unfold PatchesAt at hp
  split at hp <;> first | rfl | exact hp.elim

/-- Position `n` of the history, which stands for `i` in the end: the statement itself, not overwritten,
    or a patched jump, not overwritten after the patch. -/
def StandsFor (base : Nat) (mem : Nat → Monoasm.Byte) (K : List Op) (n : Nat) (i : Inst Val Nat) : Prop :=
  (K[n]? = some (.inst i) ∧ SparesRange (Spec.place base mem K n) (Spec.place base mem K (n + 1) - Spec.place base mem K n)
      (reach base mem (K.take (n + 1))) (K.drop (n + 1)))
  ∨ ∃ m i0 l d op, n < m ∧ K[n]? = some (.inst i0) ∧ Patchable i0 l ∧ i = retarget d i0
    ∧ (∃ k, n < k ∧ k < m ∧ K[k]? = some .finalize ∧ ∃ a, HasAddress (reach base mem (K.take (k + 1))) l a)
    ∧ K[m]? = some op ∧ PatchesAt (reach base mem (K.take m)) (Spec.place base mem K n) d op
    ∧ (∃ a, HasAddress (reach base mem (K.take m)) d a)
    ∧ SparesRange (Spec.place base mem K n) 1 (reach base mem (K.take (n + 1))) (K.drop (n + 1))
    ∧ SparesRange (Spec.place base mem K n + 1) 4 (reach base mem (K.take (m + 1))) (K.drop (m + 1))

theorem StandsFor.stmt (h : StandsFor base mem K n i) : ∃ i0, K[n]? = some (.inst i0) ∧ ∀ l, Patchable i0 l → ∃ l', Patchable i l' := by
  rcases h with h | ⟨m, i0, l, d, op, -, h1, h2, h3, -⟩
  · exact ⟨i, h.1, fun l h => ⟨l, h⟩⟩
  · refine ⟨i0, h1, fun l' _ => ?_⟩
    subst h3
    rcases h2 with rfl | rfl
    · exact ⟨d, .inl rfl⟩
    · exact ⟨d, .inr rfl⟩

/-- A call that does not overwrite the code of the statement. -/
theorem StandsFor.snoc (c : Smooth base mem K) (h : StandsFor base mem K n i)
    (ho : ∀ x, Spec.place base mem K n ≤ x → x < Spec.place base mem K (n + 1) → ¬ Overwrites (reach base mem K) op x) :
    StandsFor base mem (K ++ [op]) n i := by
  rcases h with ⟨h1, h2⟩ | ⟨m, i0, l, d, o, h0, h1, h2, h3, ⟨k, h4, h4', h5, h6⟩, h7, h8, h9, h10, h11⟩
  · have hn := (List.getElem?_eq_some_iff.1 h1).1
    refine .inl ⟨by rw [List.getElem?_append_left hn]; exact h1, ?_⟩
    rw [place_snoc (by omega), place_snoc (by omega)]
    exact spares_snoc (by omega) h2 fun x g1 g2 => ho x g1 (by omega)
  · have hn := (List.getElem?_eq_some_iff.1 h1).1
    have hm := (List.getElem?_eq_some_iff.1 h7).1
    have hk := (List.getElem?_eq_some_iff.1 h5).1
    have h5p := c.patchable h1 h2
    refine .inr ⟨m, i0, l, d, o, h0, by rw [List.getElem?_append_left hn]; exact h1, h2, h3,
      ⟨k, h4, h4', by rw [List.getElem?_append_left hk]; exact h5, by rw [List.take_append_of_le_length (by omega)]; exact h6⟩,
      by rw [List.getElem?_append_left hm]; exact h7, ?_, ?_, ?_, ?_⟩
    · rw [place_snoc (by omega), List.take_append_of_le_length (by omega)]; exact h8
    · rw [List.take_append_of_le_length (by omega)]; exact h9
    · rw [place_snoc (by omega)]
      exact spares_snoc (by omega) h10 fun x g1 g2 => ho x g1 (by omega)
    · rw [place_snoc (by omega)]
      exact spares_snoc (by omega) h11 fun x g1 g2 => ho x (by omega) (by omega)

theorem spares_sub {a b a' b' : Nat} {s : JitMemory} {h : List Op} (hs : SparesRange a b s h) (h1 : a ≤ a') (h2 : a' + b' ≤ a + b) :
    SparesRange a' b' s h := by
  induction h generalizing s with
  | nil => trivial
  | cons o os ih => exact ⟨fun x g1 g2 => hs.1 x (by omega) (by omega), ih hs.2⟩

theorem StandsFor.opcode (c : Smooth base mem K) (h : StandsFor base mem K n i) {i0} (h0 : K[n]? = some (.inst i0)) (hp : Patchable i0 l) :
    SparesRange (Spec.place base mem K n) 1 (reach base mem (K.take (n + 1))) (K.drop (n + 1)) := by
  have := c.patchable h0 hp
  rcases h with h | ⟨m, i0, l, d, op, -, -, -, -, -, -, -, -, h, -⟩
  · exact spares_sub h.2 (Nat.le_refl _) (by omega)
  · exact h

theorem becomes_spec (h : Becomes base mem K S) (c : Smooth base mem K) :
    S.length = K.length ∧ (∀ (n : Nat) i, S[n]? = some (.inst i) → StandsFor base mem K n i)
    ∧ ∀ (n : Nat) i, K[n]? = some (.inst i) → ∃ i', S[n]? = some (.inst i') := by
  induction h with
  | start => exact ⟨rfl, by simp, by simp⟩
  | @call K S op _ ht ih =>
    obtain ⟨ih0, ih1, ih2⟩ := ih c.init
    refine ⟨by simp [ih0], fun n i hn => ?_, fun n i hn => ?_⟩
    · rcases Nat.lt_trichotomy n S.length with hlt | rfl | hgt
      · rw [List.getElem?_append_left hlt] at hn
        exact (ih1 n i hn).snoc c.init fun x _ _ => tame_spares ht x
      · simp only [List.getElem?_concat_length, Option.some.injEq] at hn
        subst hn
        refine .inl ⟨by rw [ih0]; simp, ?_⟩
        rw [List.drop_of_length_le (by simp [ih0])]
        trivial
      · rw [List.getElem?_eq_none (by simp; omega)] at hn
        cases hn
    · rcases Nat.lt_trichotomy n K.length with hlt | rfl | hgt
      · rw [List.getElem?_append_left hlt] at hn
        obtain ⟨i', h⟩ := ih2 n i hn
        exact ⟨i', by rw [List.getElem?_append_left (by omega)]; exact h⟩
      · simp only [List.getElem?_concat_length, Option.some.injEq] at hn
        exact ⟨i, by rw [← ih0]; simp [hn]⟩
      · rw [List.getElem?_eq_none (by simp; omega)] at hn
        cases hn
  | @patch K S op n0 i0 d _ hs hres hpa hb ih =>
    obtain ⟨ih0, ih1, ih2⟩ := ih c.init
    have hn0 := (List.getElem?_eq_some_iff.1 hs).1
    obtain ⟨j, l, hj, hjp, k, hk1, hk2, hk3⟩ := hres
    have hkl := (List.getElem?_eq_some_iff.1 hk2).1
    have e5 := c.init.patchable hj hjp
    refine ⟨by simp [ih0], fun n i hn => ?_, fun n i hn => ?_⟩
    · rcases Nat.lt_trichotomy n S.length with hlt | rfl | hgt
      · rw [List.getElem?_append_left (by simpa using hlt)] at hn
        by_cases hnn : n0 = n
        · subst hnn
          rw [List.getElem?_set_self hn0] at hn
          cases hn
          have h1 := ih1 _ _ hs
          have hop := h1.opcode c.init hj hjp
          have hre : retarget d i0 = retarget d j := by
            rcases h1 with h1 | ⟨_, _, _, _, _, -, g1, g2, g3, -⟩
            · cases h1.1.symm.trans hj; rfl
            · cases g1.symm.trans hj
              subst g3
              rcases hjp with rfl | rfl <;> rfl
          refine .inr ⟨K.length, j, l, d, op, by omega, by rw [List.getElem?_append_left (by omega)]; exact hj, hjp, hre,
            ⟨k, hk1, by omega, by rw [List.getElem?_append_left (by omega)]; exact hk2, by rw [List.take_append_of_le_length (by omega)]; exact hk3⟩,
            by simp, ?_, ?_, ?_, ?_⟩
          · rw [reach_snoc, place_snoc (by omega)]; exact hpa
          · rw [reach_snoc]; exact hb
          · rw [place_snoc (by omega)]
            refine spares_snoc (by omega) hop fun x g1 g2 g3 => ?_
            have := patches_overwrites hpa g3
            omega
          · rw [List.drop_of_length_le (by simp)]
            trivial
        · rw [List.getElem?_set_ne hnn] at hn
          have h1 := ih1 _ _ hn
          obtain ⟨i1, hi1, -⟩ := h1.stmt
          refine h1.snoc c.init fun x g1 g2 g3 => ?_
          have := patches_overwrites hpa g3
          have := c.init.apart hi1 hj (Ne.symm hnn)
          omega
      · simp only [List.getElem?_append_right (show (S.set n0 (Op.inst (retarget d i0))).length ≤ S.length by simp), List.length_set, Nat.sub_self,
          List.getElem?_cons_zero, Option.some.injEq] at hn
        subst hn
        exact absurd (patches_isPatch hpa) (by simp [isPatch])
      · rw [List.getElem?_eq_none (by simp; omega)] at hn
        cases hn
    · rcases Nat.lt_trichotomy n K.length with hlt | rfl | hgt
      · rw [List.getElem?_append_left hlt] at hn
        obtain ⟨i', h⟩ := ih2 n i hn
        rw [List.getElem?_append_left (by simp; omega)]
        by_cases hnn : n0 = n
        · subst hnn; exact ⟨_, List.getElem?_set_self hn0⟩
        · exact ⟨i', by rw [List.getElem?_set_ne hnn]; exact h⟩
      · simp only [List.getElem?_concat_length, Option.some.injEq] at hn
        subst hn
        exact absurd (patches_isPatch hpa) (by simp [isPatch])
      · rw [List.getElem?_eq_none (by simp; omega)] at hn
        cases hn

/-! ### Complete histories -/

theorem becomes_raw (h : Becomes base mem K S) : NoRaw K := by
  induction h with
  | start => intro op h; cases h
  | call _ ht ih => exact noRaw_append.2 ⟨ih, by intro op h; cases List.mem_singleton.1 h; exact tame_raw ht⟩
  | patch _ _ _ hp _ ih =>
    refine noRaw_append.2 ⟨ih, ?_⟩
    intro op h l off e
    cases List.mem_singleton.1 h
    subst e
    exact hp

theorem complete_smooth (h : Complete base mem K S) : Smooth base mem K := by
  obtain ⟨s, hs⟩ := h.run
  refine ⟨?_, becomes_raw h.becomes, h.accepted⟩
  rw [hs, show reach base mem K = s from runCaught_of_ok hs]

theorem complete_standsFor (h : Complete base mem K S) (hn : S[n]? = some (.inst i)) : StandsFor base mem K n i :=
  (becomes_spec h.becomes (complete_smooth h)).2.1 n i hn

/-- Patches do not change the labels. -/
theorem patch_labels {s : JitMemory} (h : isPatch op = true) : (op.run s).state.labels = s.labels := by
  have hp : op.pokes := by
    unfold isPatch at h
    split at h <;> first | trivial | cases h
  obtain ⟨m, e, -⟩ := pokes_state hp s
  rw [e]

theorem patches_labels {h : List Op} {s : JitMemory} (hp : ∀ op ∈ h, isPatch op = true) : (runCaught h s).labels = s.labels := by
  induction h generalizing s with
  | nil => rfl
  | cons op ops ih =>
    rw [runCaught_cons, ih fun o ho => hp o (by simp [ho]), patch_labels (hp op (by simp))]

/-- The last `finalize` is after the statement, and the labels of statements are bound then. -/
theorem complete_final (h : Complete base mem K S) (hA : Alloc base) (hn : K[n]? = some (.inst i)) :
    ∃ k, n < k ∧ Finishes base mem K k ∧ ∀ l, i.mentions l → ∃ a, HasAddress (reach base mem (K.take (k + 1))) l a := by
  obtain ⟨k, h1, h2⟩ := h.last
  refine ⟨k, ?_, (complete_smooth h).finishes h1, fun l hl => ?_⟩
  · rcases Nat.lt_trichotomy n k with hlt | rfl | hgt
    · exact hlt
    · cases hn.symm.trans h1
    · have : Op.inst i ∈ K.drop (k + 1) := List.mem_iff_getElem?.2 ⟨n - (k + 1), by rw [List.getElem?_drop, show k + 1 + (n - (k + 1)) = n by omega]; exact hn⟩
      cases h2 _ this
  · obtain ⟨a, ha⟩ := h.bound i (List.mem_of_getElem? hn) l hl
    obtain ⟨p, c, h3, -⟩ := (hasAddress_iff (inv_reach base mem K) hA.pos).1 ha
    refine ⟨_, hasAddress_of_loc (p := p) (c := c) (inv_reach base mem _) hA.pos ?_⟩
    rw [reach_take (k + 1), JitMemory.locOf, patches_labels h2] at h3
    exact h3

theorem complete_ready (h : Complete base mem K S) (hA : Alloc base) (hn : K[n]? = some (.inst i))
    (hs : SparesRange (Spec.place base mem K n) (Spec.place base mem K (n + 1) - Spec.place base mem K n)
      (reach base mem (K.take (n + 1))) (K.drop (n + 1))) : Ready base mem K encoded n i :=
  ⟨(complete_smooth h).runs hn, fun _ => rfl, hs, fun l _ => h.once l, complete_final h hA hn⟩

/-- The step of the processor at the code of a statement. -/
theorem live_step {E : Effect} {δ δ' : Data} {r I} (h : Complete base mem K S) (hA : Alloc base) (hn : S[n]? = some (.inst i))
    (hI : instrAt base mem K encoded n i = some I) (hd : Intact base mem K n δ) :
    X86.Step E ⟨placeW base mem K n, δ⟩ ⟨r, δ'⟩ ↔ Exec E (placeW base mem K (n + 1)) I δ r δ' := by
  have c := complete_smooth h
  rcases complete_standsFor h hn with ⟨h1, h2⟩ | ⟨m, i0, l, d, op, h1, h2, h3, rfl, h5, h6, h7, h8, h9, h10⟩
  · exact step_at hA c.raw c.noPanic h1 (complete_ready h hA h1 h2) hI hd
  · refine patched_step (m := m) (d := d) hA c.raw c.noPanic ⟨h2, ⟨l, h3, h5.imp fun _ h => ⟨h.1, h.2.1, c.finishes h.2.2.1, h.2.2.2⟩⟩, c.runs h2, ?_, h8, h.once d, h9, h10⟩ hd (i := i0) ?_
    · unfold PatchesAt at h7
      split at h7
      · obtain ⟨rfl, h7⟩ := h7; exact .inl ⟨_, h6, h7⟩
      · obtain ⟨rfl, rfl⟩ := h7; exact .inr h6
      · exact h7.elim
    · rcases h3 with rfl | rfl <;> exact hI

theorem complete_binds (h : Complete base mem K S) (hn : K[n]? = some (.bind_label l) ∨ K[n]? = some (.inst (.Label l))) :
    Binds base mem K n l := by
  refine ⟨hn.symm, ?_⟩
  have h : ∃ s', bind_label l (reach base mem (K.take n)) = .ok () s' := by
    rcases hn with hn | hn
    · obtain ⟨s', h, -⟩ := (complete_smooth h).at hn; exact ⟨s', h⟩
    · obtain ⟨s', h, -⟩ := (complete_smooth h).at hn; exact ⟨s', h⟩
  obtain ⟨s', h⟩ := h
  rcases Nat.lt_or_ge l (reach base mem (K.take n)).labels.length with h1 | h1
  · exact h1
  · simp only [bind_label, M.bind_def, JitMemory.cur, MemPage.counterOf, modifyLabel_none h1] at h
    cases h

theorem complete_placed (h : Complete base mem K S) (hn : S[n]? = some (.inst i)) (hl : i.mentions l) (hd : isDirect i = true) :
    ∃ m, Binds base mem K m l := by
  rcases h.placed i (List.mem_of_getElem? hn) hd l hl with h1 | h1
  · obtain ⟨m, hm⟩ := List.mem_iff_getElem?.1 h1
    exact ⟨m, complete_binds h (.inl hm)⟩
  · obtain ⟨m, hm⟩ := List.mem_iff_getElem?.1 h1
    exact ⟨m, complete_binds h (.inr hm)⟩

/-- The address of a label. -/
theorem complete_target (h : Complete base mem K S) (hA : Alloc base) (n : Nat) (hb : Binds base mem K m l) :
    placeW base mem K m = placeW base mem K (n + 1) + dist (labelAddr (reach base mem K)) (Spec.place base mem K (n + 1)) l := by
  have c := complete_smooth h
  have := labelAddr_eq (binds_address hA c.raw c.noPanic (h.once l) hb)
  have e := dist_add (labelAddr (reach base mem K)) (Spec.place base mem K (n + 1)) l
  rw [this] at e
  exact e.symm

theorem complete_valid (h : Complete base mem K S) (hn : S[n]? = some (.inst i)) (hl : placedLabel i = none) (hd : isData i = false) :
    Valid i := by
  rcases complete_standsFor h hn with ⟨h1, -⟩ | ⟨m, i0, l, d, op, h1, h2, h3, rfl, -⟩
  · rcases h.meaningful i (List.mem_of_getElem? h1) with h | ⟨l, rfl⟩ | ⟨v, rfl⟩ | ⟨v, rfl⟩
    · exact h
    · cases hl
    · cases hd
    · cases hd
  · rcases h3 with rfl | rfl <;> exact ⟨fun _ => 0, _, rfl⟩

theorem complete_accepted (h : Complete base mem K S) (hn : S[n]? = some (.inst i)) : Accepted i := by
  rcases complete_standsFor h hn with ⟨h1, -⟩ | ⟨m, i0, l, d, op, h1, h2, h3, rfl, -⟩
  · exact h.accepted i (List.mem_of_getElem? h1)
  · rcases h3 with rfl | rfl <;> exact ⟨_, rfl⟩

/-- Statements have code. -/
theorem complete_strict (h : Complete base mem K S) (hA : Alloc base) (hn : S[n]? = some (.inst i)) (hl : placedLabel i = none)
    (hd : isData i = false) : Spec.place base mem K n < Spec.place base mem K (n + 1) := by
  have c := complete_smooth h
  have hv := complete_valid h hn hl hd
  rcases complete_standsFor h hn with ⟨h1, h2⟩ | ⟨m, i0, l, d, op, h1, h2, h3, h4, -⟩
  · obtain ⟨I, hI⟩ := encoded_some hv (dist (labelAddr (reach base mem K)) (Spec.place base mem K (n + 1)))
    have h := decode_at hA c.raw c.noPanic h1 (complete_ready h hA h1 h2) hI []
    rcases Nat.lt_or_ge (Spec.place base mem K n) (Spec.place base mem K (n + 1)) with hlt | hge
    · exact hlt
    · rw [Nat.sub_eq_zero_of_le hge] at h
      cases h
  · have := c.patchable h2 h3
    omega

theorem complete_apart (h : Complete base mem K S) (hA : Alloc base) (hn : S[n]? = some (.inst i)) (hm : S[m]? = some (.inst j))
    (hl : placedLabel i = none) (hd : isData i = false) (hl' : placedLabel j = none) (hd' : isData j = false)
    (e : Spec.place base mem K n = Spec.place base mem K m) : n = m := by
  have h1 := complete_strict h hA hn hl hd
  have h2 := complete_strict h hA hm hl' hd'
  obtain ⟨i0, hi, -⟩ := (complete_standsFor h hn).stmt
  obtain ⟨j0, hj, -⟩ := (complete_standsFor h hm).stmt
  by_cases hnm : n = m
  · exact hnm
  · have := (complete_smooth h).apart hi hj hnm
    omega

/-! ### Execution -/

theorem live_forward {E : Effect} {δ δ' : Data} (h : Complete base mem K S) (hA : Alloc base) (hd : Intact base mem K n δ)
    (hs : LiveStep base mem K S encoded E n δ m δ') : X86.Step E ⟨placeW base mem K n, δ⟩ ⟨placeW base mem K m, δ'⟩ := by
  cases hs with
  | @jmp _ l _ h1 h2 =>
    refine (live_step h hA h1 rfl hd).2 ?_
    rw [complete_target h hA n h2]
    exact .jmpRel
  | @taken _ c l _ h1 h2 h3 =>
    refine (live_step h hA h1 rfl hd).2 ?_
    have := Exec.jcc (E := E) (next := placeW base mem K (n + 1)) (c := cc c) (d := δ)
      (v := dist (labelAddr (reach base mem K)) (Spec.place base mem K (n + 1)) l)
    rw [if_pos h3, ← complete_target h hA n h2] at this
    exact this
  | @notTaken c l _ h1 h3 =>
    refine (live_step h hA h1 rfl hd).2 ?_
    have := Exec.jcc (E := E) (next := placeW base mem K (n + 1)) (c := cc c) (d := δ)
      (v := dist (labelAddr (reach base mem K)) (Spec.place base mem K (n + 1)) l)
    rw [if_neg (by simp [h3])] at this
    exact this
  | @call _ l _ h1 h2 =>
    refine (live_step h hA h1 rfl hd).2 ?_
    rw [complete_target h hA n h2]
    exact .callRel
  | seq h1 h2 h3 h4 => exact (live_step h hA h1 h2 hd).2 (.other h3 h4)
  | indirect h1 h2 h3 h4 h5 => exact (live_step h hA h1 h3 hd).2 h5

theorem live_back {E : Effect} {δ δ' : Data} {r} (h : Complete base mem K S) (hA : Alloc base) (hn : S[n]? = some (.inst i)) (hv : Valid i)
    (hd : Intact base mem K n δ) (hs : X86.Step E ⟨placeW base mem K n, δ⟩ ⟨r, δ'⟩) :
    (∃ m, LiveStep base mem K S encoded E n δ m δ' ∧ placeW base mem K m = r)
    ∨ (isDirect i = false ∧ ∃ I, instrAt base mem K encoded n i = some I ∧ I.isControl = true ∧ Exec E (placeW base mem K (n + 1)) I δ r δ')
      ∧ ∀ m, placeW base mem K m ≠ r := by
  obtain ⟨I, hI⟩ : ∃ I, instrAt base mem K encoded n i = some I :=
    encoded_some hv (dist (labelAddr (reach base mem K)) (Spec.place base mem K (n + 1)))
  rw [live_step h hA hn hI hd] at hs
  by_cases hdir : isDirect i = true
  · left
    have addr : ∀ l, i.mentions l → ∃ m, Binds base mem K m l ∧
        placeW base mem K m = placeW base mem K (n + 1) + dist (labelAddr (reach base mem K)) (Spec.place base mem K (n + 1)) l := by
      intro l hm
      obtain ⟨m, hm'⟩ := complete_placed h hn hm hdir
      exact ⟨m, hm', complete_target h hA n hm'⟩
    unfold isDirect at hdir
    split at hdir
    · rename_i l
      cases hI
      obtain ⟨m, hm, e⟩ := addr l (by simp [Inst.mentions, Inst.labels, Dest.labels])
      cases hs with
      | jmpRel => exact ⟨m, .jmp hn hm, e⟩
      | other h => cases h
    · rename_i c l
      cases hI
      obtain ⟨m, hm, e⟩ := addr l (by simp [Inst.mentions, Inst.labels])
      cases hs with
      | jcc =>
        by_cases hc : (cc c).holds δ.flags = true
        · exact ⟨m, .taken hn hm hc, by rw [if_pos hc]; exact e⟩
        · exact ⟨n + 1, .notTaken hn (by simpa using hc), by rw [if_neg hc]⟩
      | other h => cases h
    · rename_i l
      cases hI
      obtain ⟨m, hm, e⟩ := addr l (by simp [Inst.mentions, Inst.labels, Dest.labels])
      cases hs with
      | callRel => exact ⟨m, .call hn hm, e⟩
      | other h => cases h
    · cases hdir
  · have hdir : isDirect i = false := by simpa using hdir
    cases hc : I.isControl with
    | false =>
      left
      cases hs with
      | other h1 h2 => exact ⟨n + 1, .seq hn hI h1 h2, rfl⟩
      | _ => cases hc
    | true =>
      by_cases hm : ∃ m, placeW base mem K m = r
      · obtain ⟨m, rfl⟩ := hm
        exact .inl ⟨m, .indirect hn hdir hI hc hs, rfl⟩
      · exact .inr ⟨⟨hdir, I, hI, hc, hs⟩, fun m hm' => hm ⟨m, hm'⟩⟩

/-! ### The check -/

structure LiveInv (base : Nat) (mem : Nat → Monoasm.Byte) (K : List Op) (s : JitMemory) (T : List Entry) : Prop where
  run : runOps K (JitMemory.new base mem) = .ok () s
  becomes : Becomes base mem K (T.map Entry.op)
  addr : ∀ (n : Nat) e, T[n]? = some e → e.addr = Spec.place base mem K n
  done : ∀ (n : Nat) e, T[n]? = some e → e.resolved = true → JumpResolved base mem K n
  same : ∀ (n : Nat) e, T[n]? = some e → e.resolved = false → K[n]? = some e.op
  len : T.length = K.length
  sensible : ∀ op ∈ K, sensibleB op = true
  fresh : Along (fun s op => freshB s op = true) (JitMemory.new base mem) K

theorem LiveInv.reach {s T} (h : LiveInv base mem K s T) : Spec.reach base mem K = s := runCaught_of_ok h.run

theorem resolved_snoc (h : JumpResolved base mem K n) : JumpResolved base mem (K ++ [op]) n := by
  obtain ⟨i, l, h1, h2, k, h3, h4, h5⟩ := h
  have a := (List.getElem?_eq_some_iff.1 h1).1
  have b := (List.getElem?_eq_some_iff.1 h4).1
  exact ⟨i, l, by rw [List.getElem?_append_left a]; exact h1, h2, k, h3, by rw [List.getElem?_append_left b]; exact h4,
    by rw [List.take_append_of_le_length (by omega)]; exact h5⟩

theorem jumpLabel_patchable (h : jumpLabel op = some l) : ∃ i, op = .inst i ∧ Patchable i l := by
  unfold jumpLabel at h
  split at h
  · cases h; exact ⟨_, rfl, .inl rfl⟩
  · cases h; exact ⟨_, rfl, .inr rfl⟩
  · cases h

theorem bound_address {s : JitMemory} (hi : Inv base s) (hA : Alloc base) (h : boundB s l = true) : ∃ a, HasAddress s l a := by
  rw [boundB_eq] at h
  obtain ⟨⟨p, c⟩, h⟩ := Option.isSome_iff_exists.1 h
  exact ⟨_, hasAddress_of_loc hi hA.pos h⟩

theorem patchOf_patchesAt {s : JitMemory} {a : Nat} (hi : Inv base s) (hA : Alloc base) (h : patchOf s op = some (a, d)) :
    PatchesAt s a d op := by
  unfold patchOf at h
  split at h
  · rename_i p e
    split at h
    · rename_i x t hx
      cases h
      refine ⟨rfl, ?_⟩
      by_cases hl : p < s.labels.length
      · cases e : s.locOf p with
        | none => rw [(noAddress_unbound hl e).1] at hx; cases hx
        | some pc =>
          have := hasAddress_of_loc hi hA.pos (l := p) (p := pc.1) (c := pc.2) e
          rw [this.1] at hx
          cases hx
          exact this
      · rw [(noAddress_unknown (Nat.le_of_not_lt hl)).1] at hx
        cases hx
    · cases h
  · cases h; exact ⟨rfl, rfl⟩
  · cases h

theorem accepted_of_sensible (h : sensibleB (.inst i) = true) : Accepted i := by
  simp only [sensibleB, Bool.and_eq_true, acceptedB] at h
  have := h.1
  split at this
  · exact ⟨_, by assumption⟩
  · cases this

theorem liveFrom_inv {K ops : List Op} {s s' T T'} (hA : Alloc base) (hi : LiveInv base mem K s T) (h : liveFrom s T ops = some (s', T')) :
    LiveInv base mem (K ++ ops) s' T' := by
  induction ops generalizing K s T with
  | nil => cases h; rwa [List.append_nil]
  | cons op ops ih =>
    rw [liveFrom] at h
    split at h
    · cases h
    rename_i s1 e1
    have hrun : runOps (K ++ [op]) (JitMemory.new base mem) = .ok () s1 := by
      refine runOps_append.2 ⟨s, hi.run, ?_⟩
      simp only [runOps]
      rw [ok_bind e1]
      rfl
    have hinv : Inv base s := hi.reach ▸ inv_reach base mem K
    rw [List.append_cons]
    split at h
    · rename_i hpatch
      split at h
      · cases h
      rename_i a d hp
      split at h
      · cases h
      rename_i n hn
      split at h
      case isFalse => cases h
      rename_i hb
      refine ih ?_ h
      obtain ⟨hnl, hn1, -⟩ := List.findIdx?_eq_some_iff_getElem.1 hn
      simp only [Bool.and_eq_true, beq_iff_eq] at hn1
      have hTn : T[n]? = some T[n] := List.getElem?_eq_getElem hnl
      have hres := hi.done n _ hTn hn1.2
      have hsm : Smooth base mem K := ⟨by rw [hi.reach]; exact hi.run, becomes_raw hi.becomes, fun i hi' => accepted_of_sensible (hi.sensible _ hi')⟩
      obtain ⟨j, l, hj, hjp, -⟩ := id hres
      obtain ⟨i, hT⟩ := (becomes_spec hi.becomes hsm).2.2 n j hj
      have hop : T[n].op = .inst i := by
        rw [List.getElem?_map, hTn] at hT
        simpa using hT
      have hpa := patchOf_patchesAt hinv hA hp
      have emap : (T.modify n (Entry.patched d) ++ [Entry.mk (here s) op false]).map Entry.op = (T.map Entry.op).set n (.inst (retarget d i)) ++ [op] := by
        rw [List.map_append]
        congr 1
        apply List.ext_getElem?
        intro m
        rw [List.getElem?_map, List.getElem?_modify]
        by_cases hnm : n = m
        · subst hnm
          rw [List.getElem?_set_self (by simpa using hnl), hTn]
          simp [Entry.patched, hop]
        · rw [List.getElem?_set_ne hnm, List.getElem?_map]
          simp [hnm]
      have hold : ∀ (m : Nat) e, (T.modify n (Entry.patched d) ++ [Entry.mk (here s) op false])[m]? = some e →
          (∃ e', T[m]? = some e' ∧ e.addr = e'.addr ∧ e.resolved = e'.resolved ∧ (m ≠ n → e = e')) ∨ m = T.length ∧ e = ⟨here s, op, false⟩ := by
        intro m e he
        rcases Nat.lt_trichotomy m T.length with hlt | rfl | hgt
        · rw [List.getElem?_append_left (by simpa using hlt), List.getElem?_modify, List.getElem?_eq_getElem hlt] at he
          simp only [Option.map_eq_map, Option.map_some, Option.some.injEq] at he
          subst he
          refine .inl ⟨_, List.getElem?_eq_getElem hlt, ?_⟩
          by_cases hnm : n = m
          · subst hnm
            simp [Entry.patched, hop]
          · simp [hnm]
        · rw [List.getElem?_append_right (by simp)] at he
          simp only [List.length_modify, Nat.sub_self, List.getElem?_cons_zero, Option.some.injEq] at he
          exact .inr ⟨rfl, he.symm⟩
        · rw [List.getElem?_eq_none (by simp; omega)] at he
          cases he
      refine ⟨hrun, ?_, ?_, ?_, ?_, by simp [hi.len], ?_, ?_⟩
      · rw [emap]
        refine .patch hi.becomes hT hres ?_ ?_
        · rw [hi.reach, ← hi.addr n _ hTn, hn1.1]; exact hpa
        · rw [hi.reach]; exact bound_address hinv hA hb
      · intro m e he
        rcases hold m e he with ⟨e', h1, h2, -⟩ | ⟨rfl, rfl⟩
        · rw [h2, hi.addr m e' h1, place_snoc]
          have := (List.getElem?_eq_some_iff.1 h1).1
          have := hi.len
          omega
        · rw [hi.len, Spec.place, reach_snoc, hi.reach]
      · intro m e he hr
        rcases hold m e he with ⟨e', h1, -, h2, -⟩ | ⟨rfl, rfl⟩
        · exact resolved_snoc (hi.done m e' h1 (h2 ▸ hr))
        · cases hr
      · intro m e he hr
        rcases hold m e he with ⟨e', h1, -, h2, h3⟩ | ⟨rfl, rfl⟩
        · have hmn : m ≠ n := by
            rintro rfl
            cases h1.symm.trans hTn
            rw [h2, hn1.2] at hr
            cases hr
          obtain rfl := h3 hmn
          have := hi.same m e h1 hr
          rw [List.getElem?_append_left (List.getElem?_eq_some_iff.1 this).1]
          exact this
        · rw [hi.len]; simp
      · intro o ho
        rcases List.mem_append.1 ho with ho | ho
        · exact hi.sensible o ho
        · cases List.mem_singleton.1 ho
          cases op <;> first | rfl | (simp [isPatch] at hpatch)
      · refine along_append.2 ⟨hi.fresh, ?_, trivial⟩
        show freshB _ op = true
        cases op <;> first | rfl | (simp [isPatch] at hpatch)
    · split at h
      case isFalse => cases h
      rename_i hc
      simp only [Bool.and_eq_true] at hc
      refine ih ?_ h
      have her : Spec.reach base mem (K ++ [op]) = s1 := runCaught_of_ok hrun
      have hold : ∀ (m : Nat) e, ((if isFinalize op then T.map (Entry.finalized s1) else T) ++ [Entry.mk (here s) op false])[m]? = some e →
          (∃ e', T[m]? = some e' ∧ (e = e' ∨ op = .finalize ∧ e = e'.finalized s1)) ∨ m = T.length ∧ e = ⟨here s, op, false⟩ := by
        intro m e he
        have hlen : (if isFinalize op then T.map (Entry.finalized s1) else T).length = T.length := by split <;> simp
        rcases Nat.lt_trichotomy m T.length with hlt | rfl | hgt
        · rw [List.getElem?_append_left (by omega)] at he
          left
          split at he
          · rename_i hfin
            have : op = .finalize := by cases op <;> first | rfl | cases hfin
            rw [List.getElem?_map, List.getElem?_eq_getElem hlt] at he
            simp only [Option.map_some, Option.some.injEq] at he
            exact ⟨_, List.getElem?_eq_getElem hlt, .inr ⟨this, he.symm⟩⟩
          · exact ⟨e, he, .inl rfl⟩
        · rw [List.getElem?_append_right (by omega), hlen] at he
          simp only [Nat.sub_self, List.getElem?_cons_zero, Option.some.injEq] at he
          exact .inr ⟨rfl, he.symm⟩
        · rw [List.getElem?_eq_none (by simp; omega)] at he
          cases he
      have emap : ((if isFinalize op then T.map (Entry.finalized s1) else T) ++ [Entry.mk (here s) op false]).map Entry.op = T.map Entry.op ++ [op] := by
        rw [List.map_append]
        congr 1
        split
        · rw [List.map_map]; rfl
        · rfl
      refine ⟨hrun, ?_, ?_, ?_, ?_, ?_, ?_, ?_⟩
      · rw [emap]; exact .call hi.becomes hc.1.1
      · intro m e he
        rcases hold m e he with ⟨e', h1, h2⟩ | ⟨rfl, rfl⟩
        · have hm := (List.getElem?_eq_some_iff.1 h1).1
          have := hi.len
          have ha := hi.addr m e' h1
          rw [place_snoc (by omega), ← ha]
          rcases h2 with rfl | ⟨-, rfl⟩ <;> rfl
        · rw [hi.len, Spec.place, reach_snoc, hi.reach]
      · intro m e he hr
        rcases hold m e he with ⟨e', h1, h2⟩ | ⟨rfl, rfl⟩
        · rcases h2 with rfl | ⟨rfl, rfl⟩
          · exact resolved_snoc (hi.done m _ h1 hr)
          · cases hr' : e'.resolved with
            | true => exact resolved_snoc (hi.done m e' h1 hr')
            | false =>
              have hK := hi.same m e' h1 hr'
              have hm := (List.getElem?_eq_some_iff.1 hK).1
              simp only [Entry.finalized, hr', Bool.false_or, Option.any_eq_true] at hr
              obtain ⟨l, hl, hb⟩ := hr
              obtain ⟨i, hi1, hi2⟩ := jumpLabel_patchable hl
              refine ⟨i, l, by rw [List.getElem?_append_left hm, hK, hi1], hi2, K.length, hm, by simp, ?_⟩
              rw [List.take_of_length_le (by simp), her]
              exact bound_address (her ▸ inv_reach base mem _) hA hb
        · cases hr
      · intro m e he hr
        rcases hold m e he with ⟨e', h1, h2⟩ | ⟨rfl, rfl⟩
        · have h3 : e'.resolved = false ∧ e.op = e'.op := by
            rcases h2 with rfl | ⟨rfl, rfl⟩
            · exact ⟨hr, rfl⟩
            · simp only [Entry.finalized, Bool.or_eq_false_iff] at hr
              exact ⟨hr.1, rfl⟩
          have := hi.same m e' h1 h3.1
          rw [List.getElem?_append_left (List.getElem?_eq_some_iff.1 this).1, h3.2]
          exact this
        · rw [hi.len]; simp
      · have := hi.len
        split <;> simp [this]
      · intro o ho
        rcases List.mem_append.1 ho with ho | ho
        · exact hi.sensible o ho
        · cases List.mem_singleton.1 ho
          exact hc.1.2
      · refine along_append.2 ⟨hi.fresh, ?_, trivial⟩
        show freshB (Spec.reach base mem K) op = true
        rw [hi.reach]
        exact hc.2

theorem patchesOnly_last {K : List Op} (h : patchesOnly K.reverse = true) : ∃ k : Nat, K[k]? = some .finalize ∧ ∀ op ∈ K.drop (k + 1), isPatch op = true := by
  have key : ∀ R : List Op, patchesOnly R = true → ∃ a b : List Op, R = a ++ .finalize :: b ∧ ∀ op ∈ a, isPatch op = true := by
    intro R
    induction R with
    | nil => intro h; cases h
    | cons op ops ih =>
      intro h
      simp only [patchesOnly, Bool.or_eq_true, Bool.and_eq_true] at h
      rcases h with h | ⟨h1, h2⟩
      · have : op = .finalize := by cases op <;> first | rfl | cases h
        exact ⟨[], ops, by rw [this]; rfl, by simp⟩
      · obtain ⟨a, b, rfl, h3⟩ := ih h2
        refine ⟨op :: a, b, rfl, ?_⟩
        intro o ho
        rcases List.mem_cons.1 ho with rfl | ho
        · exact h1
        · exact h3 o ho
  obtain ⟨a, b, e, ha⟩ := key _ h
  have eK : K = b.reverse ++ .finalize :: a.reverse := by
    have := congrArg List.reverse e
    simpa using this
  refine ⟨b.length, by rw [eK]; simp, ?_⟩
  intro op hop
  rw [eK, List.append_cons, List.drop_left' (by simp)] at hop
  exact ha op (by simpa using hop)

theorem liveTrial_complete (hA : Alloc base) (h : liveTrial base mem K = some S) : Complete base mem K S := by
  rw [liveTrial] at h
  split at h
  · cases h
  rename_i s T e
  split at h
  case isFalse => cases h
  rename_i hc
  cases h
  have hi := liveFrom_inv (K := []) hA ⟨rfl, .start, by simp, by simp, by simp, rfl, by simp, trivial⟩ e
  rw [List.nil_append] at hi
  simp only [Bool.and_eq_true, List.all_eq_true] at hc
  obtain ⟨⟨h1, h2⟩, h3⟩ := hc
  refine ⟨hi.becomes, ⟨s, hi.run⟩, fun i hi' => accepted_of_sensible (hi.sensible _ hi'), fun i hi' => ?_, ?_, patchesOnly_last h1,
    fun i hi' l hl => ?_, fun i hi' hd l hl => ?_⟩
  · have := hi.sensible _ hi'
    simp only [sensibleB, Bool.and_eq_true] at this
    exact meaningfulB_sound this.2
  · exact once_of_fresh (hinv_new base mem) (becomes_raw hi.becomes) (keepsLabels_runOps hi.run) hi.fresh
  · have := h2 _ hi'
    simp only [labelsBoundB, List.all_eq_true] at this
    rw [hi.reach]
    exact bound_address (hi.reach ▸ inv_reach base mem K) hA (this l hl)
  · have := h3 _ hi'
    simp only [placedB, hd, Bool.not_true, Bool.false_or, List.all_eq_true] at this
    exact mem_placed (List.contains_iff_mem.1 (this l hl))

/-! ### The check is exact -/

theorem liveFrom_append (A B : List Op) (s : JitMemory) (T : List Entry) :
    liveFrom s T (A ++ B) = (liveFrom s T A).bind fun x => liveFrom x.1 x.2 B := by
  induction A generalizing s T with
  | nil => rfl
  | cons op ops ih =>
    rw [List.cons_append, liveFrom, liveFrom]
    split
    · rfl
    split
    · split
      · rfl
      split
      · rfl
      split
      · exact ih _ _
      · rfl
    · split
      · exact ih _ _
      · rfl

theorem patchesAt_patchOf {s : JitMemory} {a : Nat} (h : PatchesAt s a d op) : patchOf s op = some (a, d) := by
  unfold PatchesAt at h
  split at h
  · obtain ⟨rfl, h⟩ := h
    simp only [patchOf, h.1]
  · obtain ⟨rfl, rfl⟩ := h
    rfl
  · exact h.elim

theorem hasAddress_boundB {s : JitMemory} {a} (h : HasAddress s l a) : boundB s l = true := by
  rw [boundB_eq]; exact locOf_of_hasAddress h

theorem patchable_jumpLabel (h : Patchable i l) : jumpLabel (.inst i) = some l := by
  rcases h with rfl | rfl <;> rfl

theorem becomes_live (hA : Alloc base) (h : Becomes base mem K S) (c : Smooth base mem K) (hs : ∀ op ∈ K, sensibleB op = true)
    (hf : Along (fun s op => freshB s op = true) (JitMemory.new base mem) K) :
    ∃ T, liveFrom (JitMemory.new base mem) [] K = some (reach base mem K, T) ∧ T.map Entry.op = S
      ∧ ∀ n, JumpResolved base mem K n → ∃ e, T[n]? = some e ∧ e.resolved = true := by
  induction h with
  | start => exact ⟨[], rfl, rfl, by rintro n ⟨i, l, h, -⟩; simp at h⟩
  | @call K S op _ ht ih =>
    obtain ⟨hf1, hf2, -⟩ := along_append.1 hf
    obtain ⟨T, h1, h2, h3⟩ := ih c.init (fun o ho => hs o (by simp [ho])) hf1
    have hi := liveFrom_inv (K := []) hA ⟨rfl, .start, by simp, by simp, by simp, rfl, by simp, trivial⟩ h1
    rw [List.nil_append] at hi
    obtain ⟨s1, e1, e2⟩ := c.at (n := K.length) (op := op) (by simp)
    rw [reach_snoc] at e1
    rw [List.take_of_length_le (by simp)] at e2
    have hnp : isPatch op = false := by cases op <;> first | rfl | cases ht
    refine ⟨(if isFinalize op then T.map (Entry.finalized s1) else T) ++ [⟨here (reach base mem K), op, false⟩], ?_, ?_, ?_⟩
    · rw [liveFrom_append, h1, e2]
      simp only [Option.bind_some, liveFrom, e1, hnp, ht, hs op (by simp), show freshB (reach base mem K) op = true from hf2, Bool.and_self, if_true]
      simp
    · rw [← h2, List.map_append]
      congr 1
      split
      · rw [List.map_map]; rfl
      · rfl
    · rintro n ⟨i, l, g1, g2, k, g3, g4, x, g5⟩
      have hk := (List.getElem?_eq_some_iff.1 g4).1
      rw [List.length_append, List.length_singleton] at hk
      have hn : n < K.length := by omega
      rw [List.getElem?_append_left hn] at g1
      have hnT : n < T.length := by have := hi.len; omega
      have hTn := List.getElem?_eq_getElem hnT
      rcases Nat.lt_or_ge k K.length with hlt | hge
      · rw [List.getElem?_append_left hlt] at g4
        rw [List.take_append_of_le_length (by omega)] at g5
        obtain ⟨e, he, hr⟩ := h3 n ⟨i, l, g1, g2, k, g3, g4, x, g5⟩
        split
        · refine ⟨e.finalized s1, by rw [List.getElem?_append_left (by simpa using hnT), List.getElem?_map, he]; rfl, ?_⟩
          simp [Entry.finalized, hr]
        · exact ⟨e, by rw [List.getElem?_append_left hnT]; exact he, hr⟩
      · have : k = K.length := by omega
        subst this
        simp only [List.getElem?_concat_length, Option.some.injEq] at g4
        subst g4
        rw [List.take_of_length_le (by simp), e2] at g5
        refine ⟨T[n].finalized s1, by rw [if_pos (show isFinalize Op.finalize = true from rfl), List.getElem?_append_left (by simpa using hnT), List.getElem?_map, hTn]; rfl, ?_⟩
        cases hr : T[n].resolved with
        | true => simp [Entry.finalized, hr]
        | false =>
          have := hi.same n _ hTn hr
          rw [g1] at this
          have hop := Option.some.inj this
          simp only [Entry.finalized, hr, Bool.false_or]
          rw [← hop, patchable_jumpLabel g2]
          exact hasAddress_boundB g5
  | @patch K S op n0 i0 d _ hs0 hres hpa hb ih =>
    obtain ⟨hf1, hf2, -⟩ := along_append.1 hf
    obtain ⟨T, h1, h2, h3⟩ := ih c.init (fun o ho => hs o (by simp [ho])) hf1
    have hi := liveFrom_inv (K := []) hA ⟨rfl, .start, by simp, by simp, by simp, rfl, by simp, trivial⟩ h1
    rw [List.nil_append] at hi
    obtain ⟨s1, e1, e2⟩ := c.at (n := K.length) (op := op) (by simp)
    rw [reach_snoc] at e1
    rw [List.take_of_length_le (by simp)] at e2
    have hp := patches_isPatch hpa
    have hnf : op ≠ .finalize := by rintro rfl; cases hp
    obtain ⟨x, hb⟩ := hb
    obtain ⟨e0, he0, hr0⟩ := h3 n0 hres
    have hn0 := (List.getElem?_eq_some_iff.1 he0).1
    have hfind : T.findIdx? (fun e => e.addr == Spec.place base mem K n0 && e.resolved) = some n0 := by
      refine List.findIdx?_eq_some_iff_getElem.2 ⟨hn0, ?_, fun j hj => ?_⟩
      · rw [List.getElem?_eq_getElem hn0] at he0
        cases he0
        simp [hr0, hi.addr n0 _ (List.getElem?_eq_getElem hn0)]
      · have hTj := List.getElem?_eq_getElem (Nat.lt_trans hj hn0)
        simp only [Bool.and_eq_true, beq_iff_eq, not_and]
        intro ha hr
        obtain ⟨i, l, g1, g2, -⟩ := hi.done j _ hTj hr
        obtain ⟨i', l', g1', g2', -⟩ := hres
        have := c.init.apart g1 g1' (Nat.ne_of_lt hj)
        have := c.init.patchable g1 g2
        have := c.init.patchable g1' g2'
        have := hi.addr j _ hTj
        omega
    have hop : e0.op = .inst i0 := by
      rw [← h2, List.getElem?_map, he0] at hs0
      simpa using hs0
    refine ⟨T.modify n0 (Entry.patched d) ++ [⟨here (reach base mem K), op, false⟩], ?_, ?_, ?_⟩
    · rw [liveFrom_append, h1, e2]
      simp only [Option.bind_some, liveFrom, e1, hp, patchesAt_patchOf hpa, hfind, hasAddress_boundB hb, if_true]
    · rw [← h2, List.map_append]
      congr 1
      apply List.ext_getElem?
      intro m
      rw [List.getElem?_map, List.getElem?_modify]
      by_cases hnm : n0 = m
      · subst hnm
        rw [List.getElem?_set_self (by simpa using hn0), he0]
        simp [Entry.patched, hop]
      · rw [List.getElem?_set_ne hnm, List.getElem?_map]
        simp [hnm]
    · rintro n ⟨i, l, g1, g2, k, g3, g4, y, g5⟩
      have hk := (List.getElem?_eq_some_iff.1 g4).1
      rw [List.length_append, List.length_singleton] at hk
      have hn : n < K.length := by omega
      rw [List.getElem?_append_left hn] at g1
      have hlt : k < K.length := by
        rcases Nat.lt_or_ge k K.length with hlt | hge
        · exact hlt
        · have : k = K.length := by omega
          subst this
          simp only [List.getElem?_concat_length, Option.some.injEq] at g4
          exact absurd g4 hnf
      rw [List.getElem?_append_left hlt] at g4
      rw [List.take_append_of_le_length (by omega)] at g5
      obtain ⟨e, he, hr⟩ := h3 n ⟨i, l, g1, g2, k, g3, g4, y, g5⟩
      have hnT := (List.getElem?_eq_some_iff.1 he).1
      rw [List.getElem?_append_left (by simpa using hnT), List.getElem?_modify, he]
      refine ⟨_, rfl, ?_⟩
      simp only []
      split
      · rename_i hnn
        subst hnn
        cases he.symm.trans he0
        simp only [Entry.patched, hop]
        exact hr
      · exact hr

theorem patchesOnly_of {K : List Op} {k : Nat} (h1 : K[k]? = some .finalize) (h2 : ∀ op ∈ K.drop (k + 1), isPatch op = true) :
    patchesOnly K.reverse = true := by
  have e := split_at h1
  rw [← List.append_cons] at e
  rw [e, List.reverse_append, List.reverse_cons, List.append_assoc]
  have : ∀ A B : List Op, (∀ op ∈ A, isPatch op = true) → patchesOnly (A ++ (.finalize :: B)) = true := by
    intro A B hA
    induction A with
    | nil => rfl
    | cons o os ih =>
      simp only [List.cons_append, patchesOnly, Bool.or_eq_true, Bool.and_eq_true]
      exact .inr ⟨hA o (by simp), ih fun o ho => hA o (by simp [ho])⟩
  exact this _ _ fun op hop => h2 op (by simpa using hop)

theorem complete_liveTrial (hA : Alloc base) (h : Complete base mem K S) : liveTrial base mem K = some S := by
  have c := complete_smooth h
  have hf : Along (fun s op => freshB s op = true) (JitMemory.new base mem) K := by
    have key : ∀ {L : List Op} {s : JitMemory}, Inv base s → (∀ l, BindsOnce l s L) → Along (fun s op => freshB s op = true) s L := by
      intro L
      induction L with
      | nil => intros; trivial
      | cons op ops ih => intro s hi ho; exact ⟨fresh_of hA.pos hi fun l => (ho l).1, ih (inv_op hi op) fun l => (ho l).2⟩
    exact key (inv_new base mem) h.once
  obtain ⟨T, h1, h2, -⟩ := becomes_live hA h.becomes c (fun op hop => by
    unfold sensibleB
    split
    · rename_i i
      rw [acceptedB_complete (h.accepted i hop), meaningfulB_complete (h.meaningful i hop)]; rfl
    · rfl) hf
  rw [liveTrial, h1]
  simp only [h2]
  rw [if_pos]
  simp only [Bool.and_eq_true, List.all_eq_true]
  obtain ⟨k, h3, h4⟩ := h.last
  refine ⟨⟨patchesOnly_of h3 h4, fun op hop => ?_⟩, fun op hop => ?_⟩
  · unfold labelsBoundB
    split
    · rename_i i
      simp only [List.all_eq_true]
      intro l hl
      obtain ⟨a, ha⟩ := h.bound i hop l hl
      exact hasAddress_boundB ha
    · rfl
  · unfold placedB
    split
    · rename_i i
      cases hd : isDirect i with
      | false => rfl
      | true =>
        simp only [Bool.not_true, Bool.false_or, List.all_eq_true]
        exact fun l hl => List.contains_iff_mem.2 (placed_mem (h.placed i hop hd l hl))
    · rfl

/-! ### The other places of the memory -/

section
variable {b1 b2 : Nat} {m1 m2 : Nat → Monoasm.Byte}

def _root_.Spec.Entry.move (b1 b2 : Nat) (e : Entry) : Entry := ⟨b2 + (e.addr - b1), e.op.move b1 b2, e.resolved⟩

theorem shift_here {D s1 s2} (h : Shift D b1 b2 s1 s2) : b1 ≤ here s1 ∧ here s2 = b2 + (here s1 - b1) := by
  have e1 : here s1 = b1 + PAGE_SIZE * s1.page + (s1.pages s1.page).counter := by rw [here, h.contents1]
  have e2 : here s2 = b2 + PAGE_SIZE * s1.page + (s1.pages s1.page).counter := by rw [here, ← h.page, h.pages]
  rw [e1, e2]
  generalize PAGE_SIZE * s1.page = z
  omega

theorem move_isPatch (op : Op) : isPatch (op.move b1 b2) = isPatch op := by cases op <;> rfl
theorem move_isFinalize (op : Op) : isFinalize (op.move b1 b2) = isFinalize op := by cases op <;> rfl
theorem move_jumpLabel (op : Op) : jumpLabel (op.move b1 b2) = jumpLabel op := by cases op <;> rfl

theorem move_finalized {D s1 s2} (h : Shift D b1 b2 s1 s2) (e : Entry) : (e.move b1 b2).finalized s2 = (e.finalized s1).move b1 b2 := by
  simp only [Entry.finalized, Entry.move, move_jumpLabel, shift_boundB h]

theorem move_patched (e : Entry) : (e.move b1 b2).patched d = (e.patched d).move b1 b2 := by
  obtain ⟨a, op, r⟩ := e
  cases op <;> rfl

theorem shift_patchOf {D s1 s2} (h1 : 0 < b1) (h2 : 0 < b2) (h : Shift D b1 b2 s1 s2) {a} (hp : patchOf s1 op = some (a, d)) :
    patchOf s2 (op.move b1 b2) = some (b2 + (a - b1), d) := by
  unfold patchOf at hp
  split at hp
  · rename_i p e
    have := RelM.get_label_address (D := D) h1 h2 p s1 s2 h
    simp only [Op.move, patchOf]
    generalize get_label_address p s1 = r1 at this hp
    generalize get_label_address p s2 = r2 at this
    cases this with
    | ok hz hs =>
      obtain ⟨z, rfl, rfl⟩ := hz
      cases hp
      simp
    | panic => cases hp
  · cases hp; rfl
  · cases hp

theorem liveFrom_moved {K : List Op} {T T1 : List Entry} (a1 : Alloc b1) (a2 : Alloc b2) {s1 s2 t1} (hi : Inv b1 s1) (w : AbsInv (fun _ _ => True) s1)
    (hs : Shift (fun _ _ _ => True) b1 b2 s1 s2) (hT : ∀ e ∈ T, b1 ≤ e.addr) (h : liveFrom s1 T K = some (t1, T1)) :
    ∃ t2, liveFrom s2 (T.map (Entry.move b1 b2)) (K.map (Op.move b1 b2)) = some (t2, T1.map (Entry.move b1 b2))
      ∧ Shift (fun _ _ _ => True) b1 b2 t1 t2 := by
  induction K generalizing s1 s2 T with
  | nil => cases h; exact ⟨s2, rfl, hs⟩
  | cons op ops ih =>
    rw [liveFrom] at h
    rw [List.map_cons, liveFrom]
    split at h
    · cases h
    rename_i s1' e
    have hh := shift_here hs
    have hentry : Entry.mk (here s2) (op.move b1 b2) false = Entry.move b1 b2 ⟨here s1, op, false⟩ := by
      simp only [Entry.move, hh.2]
    have hi' := inv_op hi op
    have w' := absInv_op (P := fun _ _ => True) (op := op) hi a1.pos w (fun _ _ _ _ => trivial)
    rw [e, Res.state_ok] at hi' w'
    have run : (∀ a l, op = .apply_jmp_patch_address a l → b1 ≤ a) → ∃ s2', (op.move b1 b2).run s2 = .ok () s2' ∧ Shift (fun _ _ _ => True) b1 b2 s1' s2' := by
      intro hb
      have r := moved_op (D := fun _ _ _ => True) (P := fun _ _ => True) (op := op) (fun _ _ => trivial) a1.pos a2.pos (fun _ _ _ _ _ _ _ => trivial)
        hi w (fun _ _ _ _ => trivial) hb hs
      rw [e] at r
      generalize (op.move b1 b2).run s2 = r2 at r ⊢
      cases r with
      | ok _ hs' => exact ⟨_, rfl, hs'⟩
    split at h
    · rename_i hpatch
      split at h
      · cases h
      rename_i a d hp
      split at h
      · cases h
      rename_i n hn
      split at h
      case isFalse => cases h
      rename_i hb
      obtain ⟨hnl, hn1, hn2⟩ := List.findIdx?_eq_some_iff_getElem.1 hn
      simp only [Bool.and_eq_true, beq_iff_eq] at hn1
      have hba : b1 ≤ a := hn1.1 ▸ hT _ (List.getElem_mem hnl)
      obtain ⟨s2', e2, hs'⟩ := run (by
        rintro x l rfl
        cases hp
        exact hba)
      rw [e2]
      simp only [move_isPatch, hpatch, if_true, shift_patchOf a1.pos a2.pos hs hp]
      have hfind : (T.map (Entry.move b1 b2)).findIdx? (fun e => e.addr == b2 + (a - b1) && e.resolved) = some n := by
        refine List.findIdx?_eq_some_iff_getElem.2 ⟨by simpa using hnl, ?_, ?_⟩
        · simp [Entry.move, hn1.1, hn1.2]
        · intro j hj
          have := hn2 j hj
          have hjb := hT _ (List.getElem_mem (Nat.lt_trans hj hnl))
          simp only [List.getElem_map, Entry.move, Bool.and_eq_true, beq_iff_eq, not_and] at this ⊢
          intro h1
          exact this (by omega)
      rw [hfind]
      simp only [shift_boundB hs, hb, if_true]
      have := ih hi' w' hs' (T := T.modify n (Entry.patched d) ++ [⟨here s1, op, false⟩]) (fun x hx => by
        rcases List.mem_append.1 hx with hx | hx
        · obtain ⟨j, hj, rfl⟩ := List.mem_iff_getElem.1 hx
          rw [List.getElem_modify]
          have hb' := hT _ (List.getElem_mem (show j < T.length by simpa using hj))
          split
          · rename_i hj'
            subst hj'
            simp only [Entry.patched]
            split <;> exact hb'
          · exact hb'
        · cases List.mem_singleton.1 hx
          exact hh.1) h
      rw [List.map_append, List.map_singleton, ← hentry] at this
      have em : (T.modify n (Entry.patched d)).map (Entry.move b1 b2) = (T.map (Entry.move b1 b2)).modify n (Entry.patched d) := by
        apply List.ext_getElem?
        intro j
        simp only [List.getElem?_map, List.getElem?_modify]
        cases T[j]? with
        | none => rfl
        | some x =>
          simp only [Option.map_eq_map, Option.map_some]
          split
          · rw [move_patched]
          · rfl
      rwa [em] at this
    · rename_i hpatch
      split at h
      case isFalse => cases h
      rename_i hc
      have hc' := hc
      simp only [Bool.and_eq_true] at hc'
      have em := tame_move hc'.1.1 b1 b2
      obtain ⟨s2', e2, hs'⟩ := run (by rintro x l rfl; cases hc'.1.1)
      rw [em] at e2 hentry
      rw [em, e2]
      simp only [hpatch, shift_freshB hs, hc, if_true]
      have := ih hi' w' hs' (T := (if isFinalize op then T.map (Entry.finalized s1') else T) ++ [⟨here s1, op, false⟩]) (fun x hx => by
        rcases List.mem_append.1 hx with hx | hx
        · split at hx
          · obtain ⟨y, hy, rfl⟩ := List.mem_map.1 hx
            exact hT y hy
          · exact hT x hx
        · cases List.mem_singleton.1 hx
          exact hh.1) h
      rw [List.map_append, List.map_singleton, ← hentry] at this
      have em2 : (if isFinalize op then T.map (Entry.finalized s1') else T).map (Entry.move b1 b2)
          = if isFinalize op then (T.map (Entry.move b1 b2)).map (Entry.finalized s2') else T.map (Entry.move b1 b2) := by
        split
        · rw [List.map_map, List.map_map]
          exact List.map_congr_left fun x _ => (move_finalized hs' x).symm
        · rfl
      rw [em2] at this
      simpa using this

theorem liveTrial_moved (a1 : Alloc b1) (a2 : Alloc b2) (h : liveTrial b1 m1 K = some S) :
    liveTrial b2 m2 (K.map (Op.move b1 b2)) = some (S.map (Op.move b1 b2)) := by
  rw [liveTrial] at h
  split at h
  · cases h
  rename_i s T e
  split at h
  case isFalse => cases h
  rename_i hc
  cases h
  obtain ⟨t2, e2, hs⟩ := liveFrom_moved a1 a2 (inv_new b1 m1) (absInv_new _ b1 m1) (shift_new m1 m2 fun _ => trivial) (by simp) e
  rw [List.map_nil] at e2
  rw [liveTrial, e2]
  have em : (T.map (Entry.move b1 b2)).map Entry.op = (T.map Entry.op).map (Op.move b1 b2) := by
    rw [List.map_map, List.map_map]; rfl
  simp only [em]
  rw [if_pos]
  simp only [Bool.and_eq_true, List.all_eq_true] at hc ⊢
  obtain ⟨⟨h1, h2⟩, h3⟩ := hc
  refine ⟨⟨?_, fun op hop => ?_⟩, fun op hop => ?_⟩
  · rw [← List.map_reverse]
    generalize K.reverse = R at h1 ⊢
    induction R with
    | nil => exact h1
    | cons o os ih =>
      simp only [List.map_cons, patchesOnly, move_isFinalize, move_isPatch, Bool.or_eq_true, Bool.and_eq_true] at h1 ⊢
      exact h1.imp_right fun h => ⟨h.1, ih h.2⟩
  · obtain ⟨o, ho, rfl⟩ := List.mem_map.1 hop
    have := h2 o ho
    cases o <;> first | rfl | simpa only [Op.move, labelsBoundB, shift_boundB hs] using this
  · obtain ⟨o, ho, rfl⟩ := List.mem_map.1 hop
    have := h3 o ho
    have ep : (K.map (Op.move b1 b2)).filterMap placedHere = K.filterMap placedHere := by
      rw [List.filterMap_map]
      congr 1
      funext x
      cases x <;> rfl
    rw [ep]
    cases o <;> first | rfl | exact this

end

end Monoasm
