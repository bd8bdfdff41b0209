import Verif.Proofs.Hygiene2
/-
  Evaluations made by `compile`, and by the statements of a call.
-/

set_option linter.unusedSimpArgs false
set_option linter.unusedVariables false

namespace Monoasm
open Spec G JitMemory
attribute [local irreducible] G.regRm G.arg1 G.letImm G.tryI8 G.tryI16 G.tryI32 G.jit G.letVar
  G.block G.eval G.label G.reg G.xmm G.rm G.xm G.ind G.panic

variable {ε lam ω : Type} {U : User ε lam ω} {E : ε → Prop} {F : lam → Prop} {g : G ε lam ω Unit}

/-- `L`'s expressions, each at least as often as in `L` and at most twice as often. -/
def Twice (L : List ε) (l : List ε) : Prop :=
  ∀ (p : ε → Bool), L.countP p ≤ l.countP p ∧ l.countP p ≤ 2 * L.countP p

theorem Twice.of_perm {L l : List ε} (h : l.Perm L) : Twice L l := by
  intro p
  rw [h.countP_eq p]
  omega

syntax "twice_leaf" : tactic
macro_rules
  | `(tactic| twice_leaf) => `(tactic| (
      (show Twice _ _)
      <;> intro p
      <;> simp only [List.countP_append, List.append_nil, List.nil_append, List.countP_nil, Nat.zero_add,
        Nat.add_zero,
        RmOperand.order, XmOperand.order, IndAddr.order, RmOperand.exprs, RmiOperand.exprs,
        RiOperand.exprs, XmOperand.exprs, MovOperand.exprs, Dest.exprs, IndAddr.exprs, Inst.exprs]
      <;> omega))

syntax "tr2" : tactic
macro_rules
  | `(tactic| tr2) => `(tactic| ((repeat' (first | tr_step | (intro _; tr_step))) <;>
      (first
      | assumption
      | exact of_single (by assumption)
      | decide
      | rfl
      | twice_leaf)))

theorem tr_compile {i : Inst ε lam} (hE : ∀ e ∈ i.exprs, E e) (hF : ∀ l ∈ i.labels, F l)
    (hr : ¬ Repeats i) (h : Expand.compile U i = .ok g) :
    Tr E F g (fun l => List.Perm l i.exprs) := by
  cases i
  case Movq a b =>
    simp only [Inst.exprs, Inst.labels, List.mem_append, or_imp, forall_and] at hE hF
    exact tr_movq hE.1 hE.2 hF.1 hF.2 hr h
  case Xchg sz a b =>
    simp only [Inst.exprs, Inst.labels, List.mem_append, or_imp, forall_and] at hE hF
    obtain ⟨h1, h2⟩ := hE
    obtain ⟨l1, l2⟩ := hF
    cases sz <;> simp only [Expand.compile, reduceCtorEq] at h
    cases a <;> cases b <;> simp only [Except.ok.injEq, reduceCtorEq] at h
    · exact absurd trivial hr
    all_goals subst h; tr
  case Testq a b =>
    simp only [Inst.exprs, Inst.labels, List.mem_append, or_imp, forall_and] at hE hF
    obtain ⟨h1, h2⟩ := hE
    cases a <;> cases b <;> simp only [Expand.compile, Except.ok.injEq, reduceCtorEq] at h
    · exact absurd trivial hr
    all_goals subst h; tr
  case Testb a b =>
    simp only [Inst.exprs, Inst.labels, List.mem_append, or_imp, forall_and] at hE hF
    obtain ⟨h1, h2⟩ := hE
    cases a <;> cases b <;> simp only [Expand.compile, Except.ok.injEq, reduceCtorEq] at h
    · exact absurd trivial hr
    all_goals subst h; tr
  case Movl a b =>
    simp only [Inst.exprs, Inst.labels, List.mem_append, or_imp, forall_and] at hE hF
    exact tr_movl hE.1 hE.2 hF.1 hF.2 h
  case Movw a b =>
    simp only [Inst.exprs, Inst.labels, List.mem_append, or_imp, forall_and] at hE hF
    exact tr_movw hE.1 hE.2 hF.1 hF.2 h
  case Movb a b =>
    simp only [Inst.exprs, Inst.labels, List.mem_append, or_imp, forall_and] at hE hF
    exact tr_movb hE.1 hE.2 hF.1 hF.2 h
  case Call d =>
    cases d <;> simp only [Expand.compile, Except.ok.injEq, reduceCtorEq] at h <;> subst h
    case rel l =>
      have hl : F l := hF l (by simp [Inst.labels, Dest.labels])
      tr
    all_goals tr
  case Jmp d =>
    cases d <;> simp only [Expand.compile, Except.ok.injEq, reduceCtorEq] at h <;> subst h
    case rel l =>
      have hl : F l := hF l (by simp [Inst.labels, Dest.labels])
      tr
    all_goals tr
  case Jcc c l =>
    have hl : F l := hF l (by simp [Inst.labels])
    simp only [Expand.compile, Except.ok.injEq, reduceCtorEq] at h
    subst h; tr
  case Label l =>
    have hl : F l := hF l (by simp [Inst.labels])
    simp only [Expand.compile, Except.ok.injEq, reduceCtorEq] at h
    subst h; tr
  case Imul a b =>
    simp only [Inst.exprs, Inst.labels, List.mem_append, or_imp, forall_and] at hE hF
    obtain ⟨h1, h2⟩ := hE
    obtain ⟨l1, l2⟩ := hF
    cases a <;> cases b <;> simp only [Expand.compile, Except.ok.injEq, reduceCtorEq] at h <;> subst h
    · refine Tr.regRm (Tr.reg h1) (Tr.rm (a := .reg _) h2 (by simp [RmOperand.labels])) ?_
      perm_leaf
    · tr
  case Lea a b =>
    simp only [Inst.exprs, Inst.labels, List.mem_append, or_imp, forall_and] at hE hF
    obtain ⟨h1, h2⟩ := hE
    obtain ⟨l1, l2⟩ := hF
    cases a <;> cases b <;> simp only [Expand.compile, Except.ok.injEq, reduceCtorEq] at h <;> subst h
    tr
  case Movsd a b =>
    simp only [Inst.exprs, Inst.labels, List.mem_append, or_imp, forall_and] at hE hF
    obtain ⟨h1, h2⟩ := hE
    obtain ⟨l1, l2⟩ := hF
    cases a <;> cases b <;> simp only [Expand.compile, Except.ok.injEq, reduceCtorEq] at h <;> subst h
    all_goals tr
  case Cmovcc sz c a b =>
    simp only [Inst.exprs, Inst.labels, List.mem_append, or_imp, forall_and] at hE hF
    obtain ⟨h1, h2⟩ := hE
    cases sz <;> cases b <;> simp only [Expand.compile, Except.ok.injEq, reduceCtorEq] at h <;> subst h
    all_goals tr
  case Roundpd a b e =>
    simp only [Inst.exprs, Inst.labels, List.mem_append, or_imp, forall_and] at hE hF
    obtain ⟨⟨h1, h2⟩, h3⟩ := hE
    cases b <;> simp only [Expand.compile, Except.ok.injEq, reduceCtorEq] at h <;> subst h
    all_goals (refine Tr.bind (L := []) (Tr.jit rfl) fun _ => Tr.bind (Tr.regRm (Tr.xmm h1)
      (Tr.xm h2 hF) rfl) fun _ => Tr.arg1 (Tr.eval (of_single h3)) ?_; perm_leaf)
  case Idiv a => simp only [Expand.compile] at h; exact tr_divide_op hE hF h
  case Idivl a => simp only [Expand.compile] at h; exact tr_divide_op hE hF h
  case Div a => simp only [Expand.compile] at h; exact tr_divide_op hE hF h
  case Divl a => simp only [Expand.compile] at h; exact tr_divide_op hE hF h
  case Pushq a => simp only [Expand.compile] at h; exact tr_push_pop hE hF h
  case Popq a => simp only [Expand.compile] at h; exact tr_push_pop hE hF h
  case Negq a =>
    cases a <;> simp only [Expand.compile, Except.ok.injEq, reduceCtorEq] at h <;> subst h
    all_goals tr
  case Setcc c a =>
    cases a <;> simp only [Expand.compile, Except.ok.injEq, reduceCtorEq] at h <;> subst h
    all_goals tr
  all_goals first
    | (simp only [Expand.compile, Except.ok.injEq] at h; subst h; tr; done)
    | (simp only [Inst.exprs, Inst.labels, List.mem_append, or_imp, forall_and] at hE hF
       obtain ⟨h1, h2⟩ := hE
       first
       | exact tr_binary_op h1 h2 hF.1 hF.2 h
       | exact tr_shift_op h1 h2 hF h
       | exact tr_count_op h1 h2 hF h
       | exact tr_binary_sd_op h1 h2 hF h
       | (rename_i a b
          cases b <;> simp only [Expand.compile, Except.ok.injEq] at h <;> subst h
          all_goals tr))

theorem tr_repeats {i : Inst ε lam} (hE : ∀ e ∈ i.exprs, E e) (hF : ∀ l ∈ i.labels, F l)
    (hr : Repeats i) (h : Expand.compile U i = .ok g) :
    Tr E F g (Twice i.exprs) := by
  unfold Repeats at hr
  split at hr
  case h_1 r im sz =>
    simp only [Inst.exprs, Inst.labels, List.mem_append, or_imp, forall_and] at hE hF
    obtain ⟨h1, h2⟩ := hE
    have h3 : ∀ e ∈ [im], E e := h2
    simp only [Expand.compile, Expand.movq] at h
    cases sz with
    | none => simp only [Except.ok.injEq] at h; subst h; tr2
    | some s =>
      split at h
      · rename_i h9
        split at h
        · simp only [Except.ok.injEq] at h; subst h; tr2
        · simp at h
      · rename_i h9; simp at h9
  case h_2 sz r1 r2 =>
    simp only [Inst.exprs, Inst.labels, List.mem_append, or_imp, forall_and] at hE hF
    obtain ⟨h1, h2⟩ := hE
    obtain ⟨l1, l2⟩ := hF
    cases sz <;> simp only [Expand.compile, reduceCtorEq, Except.ok.injEq] at h
    subst h
    tr2
  case h_3 r im =>
    simp only [Inst.exprs, Inst.labels, List.mem_append, or_imp, forall_and] at hE hF
    obtain ⟨h1, h2⟩ := hE
    simp only [Expand.compile, reduceCtorEq, Except.ok.injEq] at h
    subst h
    tr2
  case h_4 r im =>
    simp only [Inst.exprs, Inst.labels, List.mem_append, or_imp, forall_and] at hE hF
    obtain ⟨h1, h2⟩ := hE
    simp only [Expand.compile, reduceCtorEq, Except.ok.injEq] at h
    subst h
    tr2
  · exact hr.elim

theorem Tr.bindK {α β} {g : G ε lam ω α} {f : α → G ε lam ω β} {K1 K : List ε → Prop}
    (hg : Tr E F g K1) (hf : ∀ a l1, K1 l1 → Tr E F (f a) (fun l => K (l1 ++ l))) :
    Tr E F (g >>= f) K := by
  intro st c
  have h1 := hg st c
  show match (match g st with
    | .ok a st' => f a st'
    | .panic e st' => .panic e st') with
    | .ok _ st' => _
    | .panic _ st' => _
  cases hgs : g st with
  | panic e st' => rw [hgs] at h1; exact h1
  | ok a st' =>
    rw [hgs] at h1
    obtain ⟨c', tr, ht, hgood, hL⟩ := h1
    have h2 := hf a _ hL st' c'
    show match f a st' with
      | .ok _ st' => _
      | .panic _ st' => _
    cases hfs : f a st' with
    | panic e st2 =>
      rw [hfs] at h2
      obtain ⟨tr2, ht2, hg2⟩ := h2
      refine ⟨tr ++ tr2, by rw [ht2, ht, List.append_assoc], ?_⟩
      intro ev hev
      rcases List.mem_append.1 hev with h | h
      · exact hgood ev h
      · exact hg2 ev h
    | ok b st2 =>
      rw [hfs] at h2
      obtain ⟨c2, tr2, ht2, hg2, hK⟩ := h2
      refine ⟨c2, tr ++ tr2, by rw [ht2, ht, List.append_assoc], ?_, ?_⟩
      · intro ev hev
        rcases List.mem_append.1 hev with h | h
        · exact hgood ev h
        · exact hg2 ev h
      · have : evaluated (tr ++ tr2) = evaluated tr ++ evaluated tr2 := by
          simp [evaluated]
        rw [this]; exact hK

/-- The outcomes wanted for a list of statements. -/
def Counts (is : List (Inst ε lam)) (l : List ε) : Prop :=
  Twice (is.flatMap Inst.exprs) l ∧ ((∀ i ∈ is, ¬ Repeats i) → l.Perm (is.flatMap Inst.exprs))

theorem tr_inst {i : Inst ε lam} (hE : ∀ e ∈ i.exprs, E e) (hF : ∀ l ∈ i.labels, F l)
    (h : Expand.compile U i = .ok g) : Tr E F g (Counts [i]) := by
  by_cases hr : Repeats i
  · refine (tr_repeats hE hF hr h).weaken fun l hl => ⟨by simpa using hl, fun hn => ?_⟩
    exact absurd hr (hn i (by simp))
  · refine (tr_compile hE hF hr h).weaken fun l hl => ⟨?_, fun _ => by simpa using hl⟩
    exact Twice.of_perm (by simpa using hl)

theorem tr_compileAll {is : List (Inst ε lam)} (hE : ∀ i ∈ is, ∀ e ∈ i.exprs, E e)
    (hF : ∀ i ∈ is, ∀ l ∈ i.labels, F l)
    (h : Expand.compileAll U is = .ok g) : Tr E F g (Counts is) := by
  induction is generalizing g with
  | nil =>
    simp only [Expand.compileAll, Except.ok.injEq] at h
    subst h
    exact Tr.pure ⟨Twice.of_perm (by simp), by simp⟩
  | cons i is ih =>
    simp only [Expand.compileAll] at h
    cases h1 : Expand.compile U i with
    | error e => rw [h1] at h; cases h
    | ok g1 =>
      rw [h1] at h
      cases h2 : Expand.compileAll U is with
      | error e => rw [h2] at h; cases h
      | ok g2 =>
        rw [h2] at h
        simp only [Except.ok.injEq] at h
        subst h
        refine Tr.bindK (tr_inst (hE i (by simp)) (hF i (by simp)) h1) fun _ l1 k1 =>
          (ih (fun j hj => hE j (by simp [hj])) (fun j hj => hF j (by simp [hj])) h2).weaken
            fun l2 k2 => ?_
        refine ⟨fun p => ?_, fun hn => ?_⟩
        · have a1 := k1.1 p
          have a2 := k2.1 p
          simp only [List.flatMap_cons, List.flatMap_nil, List.append_nil] at a1
          simp only [List.flatMap_cons, List.countP_append]
          omega
        · have a1 := k1.2 (by simpa using hn i (by simp))
          have a2 := k2.2 (fun j hj => hn j (by simp [hj]))
          simp only [List.flatMap_cons, List.flatMap_nil, List.append_nil] at a1
          simpa using a1.append a2

theorem tr_monoasm {is : List (Inst ε lam)} (hE : ∀ i ∈ is, ∀ e ∈ i.exprs, E e)
    (hF : ∀ i ∈ is, ∀ l ∈ i.labels, F l)
    (h : Expand.monoasm U is = .ok g) : Tr E F g (Counts is) := by
  unfold Expand.monoasm at h
  cases h2 : Expand.compileAll U is with
  | error e => rw [h2] at h; cases h
  | ok g2 =>
    rw [h2] at h
    simp only [Except.ok.injEq] at h
    subst h
    exact Tr.block (Tr.bind (L := []) (Tr.letVar (by decide) rfl) fun _ => tr_compileAll hE hF h2)

end Monoasm
