import Verif.Proofs.Evaluate2
/-
  All statements, and lists of statements.
-/

set_option linter.unusedSimpArgs false
set_option linter.unusedVariables false
set_option linter.unusedSectionVars false

namespace Monoasm
open Spec G JitMemory
attribute [local irreducible] G.regRm G.arg1 G.letImm G.jit G.letVar
  G.block G.eval G.label G.reg G.xmm G.panic

variable {ε lam ω : Type} {E : ε → Prop} {F : lam → Prop} {U : User ε lam ω}
  {S : JitMemory → JitMemory → Prop} {α β γ δ : Type}

/-- `Does`, in a given world. -/
def DoesAt (w : ω) (S : JitMemory → JitMemory → Prop) (g : G ε lam ω Unit) (I : γ → M Unit) (x : W ω γ) : Prop :=
  ∀ st, Clean st.hidden → st.world = w →
    match x w with
    | (some b, w) =>
      match I b st.jit with
      | .ok _ s => ∃ st', g st = .ok () st' ∧ st'.jit = s ∧ st'.world = w ∧ Clean st'.hidden
      | .panic p s => ∃ p' st', g st = .panic p' st' ∧ st'.jit = s ∧ (p' = p ∨ p' = .userCode)
    | (none, _) => ∃ p st', g st = .panic p st' ∧ S st.jit st'.jit

theorem Does.of_at {g : G ε lam ω Unit} {I : γ → M Unit} {x : W ω γ} (h : ∀ w, DoesAt w S g I x) : Does S g I x :=
  fun st c => h st.world st c rfl

/-- An evaluation that changes nothing. -/
theorem DoesAt.known (h0 : ∀ s, S s s) {g : G ε lam ω β} {x : W ω α} {p : α → β} {f : β → G ε lam ω Unit}
    {I : γ → M Unit} {y : α → W ω γ} {w : ω} (hs : ∀ w, (x w).2 = w) (h1 : Gives g x p)
    (h2 : ∀ a, x w = (some a, w) → DoesAt w S (f (p a)) I (y a)) : DoesAt w S (g >>= f) I (x >>= y) := by
  rintro st c rfl
  have h := h1 st c
  have hw := hs st.world
  rcases hx : x st.world with ⟨_ | a, w⟩
  · rw [hx] at h
    obtain ⟨st1, e1, j1⟩ := h
    rw [W.bind_none hx]
    exact ⟨_, st1, G.bind_panic e1, j1 ▸ h0 _⟩
  · rw [hx] at h hw
    cases hw
    obtain ⟨st1, e1, j1, w1, c1⟩ := h
    have h := h2 a hx st1 c1 w1
    rw [W.bind_some hx, G.bind_ok e1, ← j1]
    exact h

theorem Does.known (h0 : ∀ s, S s s) {g : G ε lam ω β} {x : W ω α} {p : α → β} {f : β → G ε lam ω Unit}
    {I : γ → M Unit} {y : α → W ω γ} (hs : ∀ w, (x w).2 = w) (h1 : Gives g x p)
    (h2 : ∀ w a, x w = (some a, w) → DoesAt w S (f (p a)) I (y a)) : Does S (g >>= f) I (x >>= y) :=
  Does.of_at fun w => DoesAt.known h0 hs h1 (h2 w)

theorem DoesAt.jit {m : M Unit} {I : γ → M Unit} {b : γ} {w : ω} (h : ∀ s, I b s = m s) :
    DoesAt w S (G.jit m : G ε lam ω Unit) I (Pure.pure b) := by
  rintro st c rfl
  exact Does.jit (S := S) h st c

/-- The same evaluation again. -/
theorem DoesAt.again {g : G ε lam ω β} {x : W ω α} {p : α → β} {f : β → G ε lam ω Unit}
    {I : γ → M Unit} {y : W ω γ} {w : ω} {a : α} (h1 : Gives g x p) (hx : x w = (some a, w))
    (h2 : DoesAt w S (f (p a)) I y) : DoesAt w S (g >>= f) I y := by
  rintro st c rfl
  have h := h1 st c
  rw [hx] at h
  obtain ⟨st1, e1, j1, w1, c1⟩ := h
  have h := h2 st1 c1 w1
  rw [G.bind_ok e1, ← j1]
  exact h

theorem DoesAt.arg1 {g : G ε lam ω β} {x : W ω α} {p : α → β} {f : β → M Unit} {I : γ → M Unit} {b : γ} {w : ω}
    {a : α} (h1 : Gives g x p) (hx : x w = (some a, w)) (h : ∀ s, I b s = f (p a) s) :
    DoesAt w S (G.arg1 f g) I (Pure.pure b) := by
  unfold G.arg1
  exact DoesAt.again h1 hx (DoesAt.jit h)

theorem DoesAt.regRm {g : G ε lam ω Reg} {g' : G ε lam ω Rm} {x : W ω α} {x' : W ω β} {p : α → Reg} {p' : β → Rm}
    {f : Reg → Rm → M Unit} {I : γ → M Unit} {b : γ} {w : ω} {a : α} {a' : β} (h1 : Gives g x p)
    (hx : x w = (some a, w)) (h1' : Gives g' x' p') (hx' : x' w = (some a', w)) (h : ∀ s, I b s = f (p a) (p' a') s) :
    DoesAt w S (G.regRm f g g') I (Pure.pure b) := by
  unfold G.regRm
  exact DoesAt.again h1 hx (DoesAt.again h1' hx' (DoesAt.jit h))

/-- An operand that is evaluated after code was emitted. -/
theorem Does.then_arg1 {g1 : G ε lam ω Unit} {I1 : α → M Unit} {x1 : W ω α}
    {g2 : G ε lam ω δ} {x2 : W ω β} {p : β → δ} {f : δ → M Unit} {I : γ → M Unit} {k : α → β → γ}
    (hS : ∀ a s s', (∃ q, I1 a s = .panic q s') ∨ I1 a s = .ok () s' → S s s')
    (h1 : Does S g1 I1 x1) (h2 : Gives g2 x2 p) (hk : ∀ a b s, I (k a b) s = (do I1 a; f (p b) : M Unit) s) :
    Does S (do g1; G.arg1 f g2) I (do let a ← x1; let b ← x2; Pure.pure (k a b)) := by
  intro st c
  have h := h1 st c
  rcases hx1 : x1 st.world with ⟨_ | a, w1⟩
  · rw [hx1] at h
    obtain ⟨q, st1, e1, hl⟩ := h
    rw [W.bind_none hx1]
    exact ⟨q, st1, G.bind_panic e1, hl⟩
  · rw [hx1] at h
    rw [W.bind_some hx1]
    cases hI : I1 a st.jit with
    | panic q s =>
      simp only [hI] at h
      obtain ⟨q', st1, e1, j1, hq⟩ := h
      rcases hx2 : x2 w1 with ⟨_ | b, w2⟩
      · rw [W.bind_none hx2]
        exact ⟨q', st1, G.bind_panic e1, hS a _ _ (Or.inl ⟨q, j1 ▸ hI⟩)⟩
      · rw [W.bind_some hx2]
        show match I (k a b) st.jit with
          | .ok _ s => _
          | .panic p s => _
        rw [hk, M.bind_panic' hI]
        exact ⟨q', st1, G.bind_panic e1, j1, hq⟩
    | ok u s =>
      simp only [hI] at h
      obtain ⟨st1, e1, j1, w1', c1⟩ := h
      have ha := Does.arg1 (S := fun s s' => s' = s) (fun _ => rfl) (f := f) h2 st1 c1
      rw [w1'] at ha
      rcases hx2 : x2 w1 with ⟨_ | b, w2⟩
      · rw [hx2] at ha
        obtain ⟨q, st2, e2, j2⟩ := ha
        rw [W.bind_none hx2]
        exact ⟨q, st2, (G.bind_ok e1).trans e2, hS a _ _ (Or.inr (by rw [j2, j1]; exact hI))⟩
      · rw [hx2] at ha
        rw [W.bind_some hx2]
        show match I (k a b) st.jit with
          | .ok _ s => _
          | .panic p s => _
        rw [hk, M.bind_ok' hI, G.bind_ok e1, ← j1]
        exact ha

section
variable (H : Knows U E F) (h0 : ∀ s, S s s) (h1 : ∀ b s s', emitb b s = .ok () s' → S s s') {g : G ε lam ω Unit}
include H h0 h1

/-- What a statement with values does. -/
abbrev exec (j : Inst V DestLabel) : M Unit := (Op.inst j).run

theorem ev_roundpd (hS : ∀ s s', Half s s' → S s s') {a : XmmReg ε} {b : XmOperand ε lam} {e : ε}
    (hE : ∀ e ∈ a.exprs, E e) (hE' : ∀ e ∈ b.exprs, E e) (he : E e) (hF : ∀ l ∈ b.labels, F l)
    (hg : Expand.compile U (.Roundpd a b e) = .ok g) : Does S g exec (evaluate U (.Roundpd a b e)) := by
  cases hg
  have h : Does S (do jit (emitb 0x66); regRm (enc_mr [0x0f, 0x3a, 0x09]) (xmm U a) (xm U b))
      (fun ab : XmmReg V × XmOperand V DestLabel => (do emitb 0x66; enc_mr [0x0f, 0x3a, 0x09] ab.1.toReg ab.2.toRm : M Unit))
      (do let a ← evXmm U a; let b ← evXm U b; Pure.pure (a, b)) :=
    Does.emit_regRm h0 h1 (Gives.xmm H hE) (Gives.xm H hE' hF) fun _ _ _ => rfl
  have hk : ∀ (ab : XmmReg V × XmOperand V DestLabel) (v : V) s, exec (.Roundpd ab.1 ab.2 v) s =
      (do (do emitb 0x66; enc_mr [0x0f, 0x3a, 0x09] ab.1.toReg ab.2.toRm : M Unit); emitb (v.setWidth 8) : M Unit) s := by
      intro ab v s
      show (emitb 0x66 >>= fun _ => enc_mr [0x0f, 0x3a, 0x09] ab.1.toReg ab.2.toRm >>= fun _ => emitb (v.setWidth 8)) s = _
      cases h66 : emitb 0x66 s with
      | panic q s1 => rw [M.bind_panic' h66, M.bind_panic' (M.bind_panic' h66)]
      | ok u s1 =>
        rw [M.bind_ok' h66]
        cases h3 : enc_mr [0x0f, 0x3a, 0x09] ab.1.toReg ab.2.toRm s1 with
        | panic q s2 => rw [M.bind_panic' h3, M.bind_panic' ((M.bind_ok' h66).trans h3)]
        | ok u' s2 => rw [M.bind_ok' h3, M.bind_ok' ((M.bind_ok' h66).trans h3)]
  have h2 := Does.then_arg1 (f := fun v => emitb (v.setWidth 8)) (I := exec) (p := id)
    (k := fun ab v => .Roundpd ab.1 ab.2 v) (by
      rintro ab s s' (⟨q, hq⟩ | hq)
      · exact hS _ _ ⟨ab.1, ab.2, Or.inr ⟨q, fun v => (hk ab v s).trans (M.bind_panic' hq)⟩⟩
      · exact hS _ _ ⟨ab.1, ab.2, Or.inl fun v => (hk ab v s).trans (M.bind_ok' hq)⟩) h (Gives.eval H he) hk
  intro st c
  have h3 := h2 st c
  have ew : evaluate U (.Roundpd a b e) st.world = (do
      let ab ← (do let a ← evXmm U a; let b ← evXm U b; Pure.pure (a, b) : W ω (XmmReg V × XmOperand V DestLabel))
      let v ← ev U e; Pure.pure (.Roundpd ab.1 ab.2 v) : W ω (Inst V DestLabel)) st.world := by
    show (evXmm U a >>= fun a => evXm U b >>= fun b => ev U e >>= fun v => Pure.pure (.Roundpd a b v) :
      W ω (Inst V DestLabel)) st.world = _
    rcases hx : evXmm U a st.world with ⟨_ | a', w1⟩
    · rw [W.bind_none hx, W.bind_none (W.bind_none hx)]
    · rw [W.bind_some hx]
      rcases hy : evXm U b w1 with ⟨_ | b', w2⟩
      · rw [W.bind_none hy, W.bind_none ((W.bind_some hx).trans (W.bind_none hy))]
      · rw [W.bind_some hy]
        exact (W.bind_some (f := fun ab : XmmReg V × XmOperand V DestLabel =>
          (do let v ← ev U e; Pure.pure (.Roundpd ab.1 ab.2 v) : W ω (Inst V DestLabel)))
          ((W.bind_some (f := fun a => (do let b ← evXm U b; Pure.pure (a, b) : W ω (XmmReg V × XmOperand V DestLabel)))
            hx).trans (W.bind_some (f := fun b => Pure.pure (a', b)) hy))).symm
  have eg : ∀ st', (do
      (do jit (emitb 0x66); regRm (enc_mr [0x0f, 0x3a, 0x09]) (xmm U a) (xm U b) : G ε lam ω Unit)
      G.arg1 (fun v => emitb (v.setWidth 8)) (eval U e) : G ε lam ω Unit) st' = (do
      jit (emitb 0x66); regRm (enc_mr [0x0f, 0x3a, 0x09]) (xmm U a) (xm U b)
      G.arg1 (fun v => emitb (v.setWidth 8)) (eval U e) : G ε lam ω Unit) st' := by
    intro st'
    cases h66 : (jit (emitb 0x66) : G ε lam ω Unit) st' with
    | panic q s1 => rw [G.bind_panic h66, G.bind_panic (G.bind_panic h66)]
    | ok u s1 =>
      rw [G.bind_ok h66]
      cases h3 : (regRm (enc_mr [0x0f, 0x3a, 0x09]) (xmm U a) (xm U b) : G ε lam ω Unit) s1 with
      | panic q s2 => rw [G.bind_panic h3, G.bind_panic ((G.bind_ok h66).trans h3)]
      | ok u' s2 => rw [G.bind_ok h3, G.bind_ok ((G.bind_ok h66).trans h3)]
  rw [ew]
  rw [eg] at h3
  exact h3

theorem ev_label {f : DestLabel → M Unit} {l : lam} (hl : F l) {k : DestLabel → Inst V DestLabel}
    (hk : ∀ a s, exec (k a) s = f a s) : Does S (arg1 f (label U l)) exec (Pure.pure (k (evLabel U l))) := by
  show Does S _ exec ((Pure.pure (evLabel U l) : W ω DestLabel) >>= fun l => Pure.pure (k l))
  exact Does.map (Does.arg1 h0 (Gives.label H hl)) hk

theorem ev_xchg {sz : OperandSize} {a b : RmOperand ε lam} (hu : ¬ Unsettled U (.Xchg sz a b : Inst ε lam))
    (hE : ∀ e ∈ a.exprs, E e) (hE' : ∀ e ∈ b.exprs, E e) (l1 : ∀ l ∈ a.labels, F l) (l2 : ∀ l ∈ b.labels, F l)
    (hg : Expand.compile U (.Xchg sz a b) = .ok g) : Does S g exec (evXchg U sz a b) := by
  cases sz
  case QWORD =>
    cases a with
    | ind a =>
      cases b with
      | ind b => cases hg
      | reg r =>
        cases hg
        simp only [evXchg, evRm_reg]
        exact Does.regRm h0 (Gives.reg H hE') (Gives.ind H hE l1) fun _ _ _ => rfl
    | reg r =>
      cases b with
      | ind b =>
        cases hg
        simp only [evXchg, evRm_ind]
        exact Does.regRm h0 (Gives.reg H hE) (Gives.ind H hE' l2) fun _ _ _ => rfl
      | reg r' =>
        have hs : Steady U r ∧ Steady U r' := Classical.not_not.1 hu
        cases hg
        show Does S _ exec (evReg U r >>= fun a => evRm U (.reg r') >>= fun b => Pure.pure (.Xchg .QWORD (.reg a) b))
        simp only [evRm_reg]
        have hx : ∀ (a b : Register V) s, exec (.Xchg .QWORD (.reg a) (.reg b)) s =
            (if a.toReg = Reg.from 0 then if b.toReg = Reg.from 0 then emitb 0x90 else enc_rexw_o 0x90 b.toReg
            else if b.toReg = Reg.from 0 then enc_rexw_o 0x90 a.toReg
            else enc_rexw_mr [0x87] b.toReg (Rm.reg a.toReg)) s := fun _ _ _ => rfl
        refine Does.known h0 hs.1 (Gives.reg H hE) fun w a ha => ?_
        by_cases h1 : a.toReg = Reg.from 0
        · rw [if_pos h1]
          refine DoesAt.known h0 hs.2 (Gives.reg H hE') fun b hb => ?_
          by_cases h2 : b.toReg = Reg.from 0
          · rw [if_pos h2]
            exact DoesAt.jit (fun s => by simp only [hx, h1, h2, if_true, if_false])
          · rw [if_neg h2]
            refine DoesAt.arg1 (Gives.reg H hE') hb (fun s => by simp only [hx, h1, h2, if_true, if_false])
        · rw [if_neg h1]
          refine DoesAt.known h0 hs.2 (Gives.reg H hE') fun b hb => ?_
          by_cases h2 : b.toReg = Reg.from 0
          · rw [if_pos h2]
            refine DoesAt.arg1 (Gives.reg H hE) ha (fun s => by simp only [hx, h1, h2, if_true, if_false])
          · rw [if_neg h2]
            refine DoesAt.regRm (Gives.reg H hE') hb (Gives.rm_reg H hE) ha (fun s => by simp only [hx, h1, h2, if_true, if_false])
  all_goals cases hg

theorem ev_testq {a : RmOperand ε lam} {b : RiOperand ε} (hu : ¬ Unsettled U (.Testq a b : Inst ε lam))
    (hE : ∀ e ∈ a.exprs, E e) (hE' : ∀ e ∈ b.exprs, E e) (l1 : ∀ l ∈ a.labels, F l)
    (hg : Expand.compile U (.Testq a b) = .ok g) : Does S g exec (evShift U .Testq a b) := by
  cases b with
  | reg r =>
    cases hg
    simp only [evShift]
    exact Does.regRm h0 (Gives.reg H hE') (Gives.rm H hE l1) fun _ _ _ => rfl
  | imm i =>
    cases a with
    | ind a =>
      cases hg
      simp only [evShift, evRm_ind]
      refine Does.val_bind h0 (Gives.letImm H (of_single hE')) fun v => ?_
      have hx : ∀ c s, exec (.Testq (.ind c) (.imm v)) s = (match i32TryFrom v with
        | some imm => enc_rexw_mi 0xf7 c.toRm (.l imm)
        | none => M.panic .immOutOfRange) s := fun _ _ => rfl
      unfold G.tryI32
      simp only [id]
      cases hv : i32TryFrom v with
      | none =>
        simp only [hv] at hx ⊢
        exact Does.block (Does.map (Does.panic h0) hx)
      | some imm =>
        simp only [hv] at hx ⊢
        exact Does.block (Does.letVar (by decide) (Does.map (Does.arg1 h0 (Gives.ind H hE l1)) hx))
    | reg r =>
      have hs : Steady U r := Classical.not_not.1 hu
      cases hg
      simp only [evShift, evRm_reg, G.jit_seq]
      refine Does.val_bind h0 (Gives.letImm H (of_single hE')) fun v => ?_
      have hx : ∀ (a : Register V) s, exec (.Testq (.reg a) (.imm v)) s = (match i32TryFrom v with
          | some imm =>
            if a.toReg.is_rax then (do emit [0x48, 0xa9]; emitl imm : M Unit)
            else enc_rexw_mi 0xf7 (Rm.reg a.toReg) (.l imm)
          | none => M.panic .immOutOfRange) s := fun _ _ => rfl
      unfold G.tryI32
      simp only [id]
      cases hv : i32TryFrom v with
      | none =>
        simp only [hv] at hx ⊢
        exact Does.block (Does.map (Does.panic h0) hx)
      | some imm =>
        simp only [hv] at hx ⊢
        refine Does.block (Does.letVar (by decide) (Does.known h0 hs (Gives.reg H hE) fun w a ha => ?_))
        have hx := hx a
        by_cases hr : a.toReg.is_rax
        · rw [if_pos hr] at hx ⊢
          exact DoesAt.jit hx
        · rw [if_neg hr] at hx ⊢
          exact DoesAt.arg1 (Gives.rm_reg H hE) ha hx

theorem ev_testb {a : RmOperand ε lam} {b : RiOperand ε} (hu : ¬ Unsettled U (.Testb a b : Inst ε lam))
    (hE : ∀ e ∈ a.exprs, E e) (hE' : ∀ e ∈ b.exprs, E e) (l1 : ∀ l ∈ a.labels, F l)
    (hg : Expand.compile U (.Testb a b) = .ok g) : Does S g exec (evShift U .Testb a b) := by
  cases b with
  | reg r =>
    cases hg
    simp only [evShift]
    exact Does.regRm h0 (Gives.reg H hE') (Gives.rm H hE l1) fun _ _ _ => rfl
  | imm i =>
    cases a with
    | ind a =>
      cases hg
      simp only [evShift, evRm_ind]
      refine Does.val_bind h0 (Gives.letImm H (of_single hE')) fun v => ?_
      have hx : ∀ c s, exec (.Testb (.ind c) (.imm v)) s = (match i8TryFrom v with
        | some imm => enc_mi_byte 0xf6 c.toRm (.b imm)
        | none => M.panic .immOutOfRange) s := fun _ _ => rfl
      unfold G.tryI8
      simp only [id]
      cases hv : i8TryFrom v with
      | none =>
        simp only [hv] at hx ⊢
        exact Does.block (Does.map (Does.panic h0) hx)
      | some imm =>
        simp only [hv] at hx ⊢
        exact Does.block (Does.letVar (by decide) (Does.map (Does.arg1 h0 (Gives.ind H hE l1)) hx))
    | reg r =>
      have hs : Steady U r := Classical.not_not.1 hu
      cases hg
      simp only [evShift, evRm_reg, G.jit_seq]
      refine Does.val_bind h0 (Gives.letImm H (of_single hE')) fun v => ?_
      have hx : ∀ (a : Register V) s, exec (.Testb (.reg a) (.imm v)) s = (match i8TryFrom v with
          | some imm =>
            if a.toReg.is_rax then (do emit [0xa8]; emitb imm : M Unit)
            else enc_mi_byte 0xf6 (Rm.reg a.toReg) (.b imm)
          | none => M.panic .immOutOfRange) s := fun _ _ => rfl
      unfold G.tryI8
      simp only [id]
      cases hv : i8TryFrom v with
      | none =>
        simp only [hv] at hx ⊢
        exact Does.block (Does.map (Does.panic h0) hx)
      | some imm =>
        simp only [hv] at hx ⊢
        refine Does.block (Does.letVar (by decide) (Does.known h0 hs (Gives.reg H hE) fun w a ha => ?_))
        have hx := hx a
        by_cases hr : a.toReg.is_rax
        · rw [if_pos hr] at hx ⊢
          exact DoesAt.jit hx
        · rw [if_neg hr] at hx ⊢
          exact DoesAt.arg1 (Gives.rm_reg H hE) ha hx

set_option maxHeartbeats 2000000 in
theorem ev_compile {i : Inst ε lam} (hS : IsRoundpd i → ∀ s s', Half s s' → S s s') (hu : ¬ Unsettled U i)
    (hE : ∀ e ∈ i.exprs, E e) (hF : ∀ l ∈ i.labels, F l) (hg : Expand.compile U i = .ok g) :
    Does S g exec (evaluate U i) := by
  cases i
  case Add sz a b =>
    simp only [Inst.exprs, Inst.labels, List.mem_append, or_imp, forall_and] at hE hF
    exact ev_binary_op H h0 h1 (fun a b => rfl) hE.1 hE.2 hF.1 hF.2 hg
  case Or sz a b =>
    simp only [Inst.exprs, Inst.labels, List.mem_append, or_imp, forall_and] at hE hF
    exact ev_binary_op H h0 h1 (fun a b => rfl) hE.1 hE.2 hF.1 hF.2 hg
  case Adc sz a b =>
    simp only [Inst.exprs, Inst.labels, List.mem_append, or_imp, forall_and] at hE hF
    exact ev_binary_op H h0 h1 (fun a b => rfl) hE.1 hE.2 hF.1 hF.2 hg
  case Sbb sz a b =>
    simp only [Inst.exprs, Inst.labels, List.mem_append, or_imp, forall_and] at hE hF
    exact ev_binary_op H h0 h1 (fun a b => rfl) hE.1 hE.2 hF.1 hF.2 hg
  case And sz a b =>
    simp only [Inst.exprs, Inst.labels, List.mem_append, or_imp, forall_and] at hE hF
    exact ev_binary_op H h0 h1 (fun a b => rfl) hE.1 hE.2 hF.1 hF.2 hg
  case Sub sz a b =>
    simp only [Inst.exprs, Inst.labels, List.mem_append, or_imp, forall_and] at hE hF
    exact ev_binary_op H h0 h1 (fun a b => rfl) hE.1 hE.2 hF.1 hF.2 hg
  case Xor sz a b =>
    simp only [Inst.exprs, Inst.labels, List.mem_append, or_imp, forall_and] at hE hF
    exact ev_binary_op H h0 h1 (fun a b => rfl) hE.1 hE.2 hF.1 hF.2 hg
  case Cmp sz a b =>
    simp only [Inst.exprs, Inst.labels, List.mem_append, or_imp, forall_and] at hE hF
    exact ev_binary_op H h0 h1 (fun a b => rfl) hE.1 hE.2 hF.1 hF.2 hg
  case Movl a b =>
    simp only [Inst.exprs, Inst.labels, List.mem_append, or_imp, forall_and] at hE hF
    exact ev_movl H h0 h1 (fun a b => rfl) hE.1 hE.2 hF.1 hF.2 hg
  case Movw a b =>
    simp only [Inst.exprs, Inst.labels, List.mem_append, or_imp, forall_and] at hE hF
    exact ev_movw H h0 h1 (fun a b => rfl) hE.1 hE.2 hF.1 hF.2 hg
  case Movb a b =>
    simp only [Inst.exprs, Inst.labels, List.mem_append, or_imp, forall_and] at hE hF
    exact ev_movb H h0 h1 (fun a b => rfl) hE.1 hE.2 hF.1 hF.2 hg
  case Movq a b =>
    simp only [Inst.exprs, Inst.labels, List.mem_append, or_imp, forall_and] at hE hF
    exact ev_movq H h0 h1 (fun a b => rfl) hE.1 hE.2 hF.1 hF.2 hg
  case Shl sz a b =>
    simp only [Inst.exprs, Inst.labels, List.mem_append, or_imp, forall_and] at hE hF
    exact ev_shift_op H h0 h1 (fun a b => rfl) hE.1 hE.2 hF hg
  case Shr sz a b =>
    simp only [Inst.exprs, Inst.labels, List.mem_append, or_imp, forall_and] at hE hF
    exact ev_shift_op H h0 h1 (fun a b => rfl) hE.1 hE.2 hF hg
  case Sal sz a b =>
    simp only [Inst.exprs, Inst.labels, List.mem_append, or_imp, forall_and] at hE hF
    exact ev_shift_op H h0 h1 (fun a b => rfl) hE.1 hE.2 hF hg
  case Sar sz a b =>
    simp only [Inst.exprs, Inst.labels, List.mem_append, or_imp, forall_and] at hE hF
    exact ev_shift_op H h0 h1 (fun a b => rfl) hE.1 hE.2 hF hg
  case Rol sz a b =>
    simp only [Inst.exprs, Inst.labels, List.mem_append, or_imp, forall_and] at hE hF
    exact ev_shift_op H h0 h1 (fun a b => rfl) hE.1 hE.2 hF hg
  case Ror sz a b =>
    simp only [Inst.exprs, Inst.labels, List.mem_append, or_imp, forall_and] at hE hF
    exact ev_shift_op H h0 h1 (fun a b => rfl) hE.1 hE.2 hF hg
  case Lzcnt sz a b =>
    simp only [Inst.exprs, Inst.labels, List.mem_append, or_imp, forall_and] at hE hF
    exact ev_count_op H h0 h1 (fun a b => rfl) hE.1 hE.2 hF hg
  case Tzcnt sz a b =>
    simp only [Inst.exprs, Inst.labels, List.mem_append, or_imp, forall_and] at hE hF
    exact ev_count_op H h0 h1 (fun a b => rfl) hE.1 hE.2 hF hg
  case Popcnt sz a b =>
    simp only [Inst.exprs, Inst.labels, List.mem_append, or_imp, forall_and] at hE hF
    exact ev_count_op H h0 h1 (fun a b => rfl) hE.1 hE.2 hF hg
  case Addsd a b =>
    simp only [Inst.exprs, Inst.labels, List.mem_append, or_imp, forall_and] at hE hF
    exact ev_binary_sd_op H h0 h1 (fun a b => rfl) hE.1 hE.2 hF hg
  case Subsd a b =>
    simp only [Inst.exprs, Inst.labels, List.mem_append, or_imp, forall_and] at hE hF
    exact ev_binary_sd_op H h0 h1 (fun a b => rfl) hE.1 hE.2 hF hg
  case Mulsd a b =>
    simp only [Inst.exprs, Inst.labels, List.mem_append, or_imp, forall_and] at hE hF
    exact ev_binary_sd_op H h0 h1 (fun a b => rfl) hE.1 hE.2 hF hg
  case Divsd a b =>
    simp only [Inst.exprs, Inst.labels, List.mem_append, or_imp, forall_and] at hE hF
    exact ev_binary_sd_op H h0 h1 (fun a b => rfl) hE.1 hE.2 hF hg
  case Minsd a b =>
    simp only [Inst.exprs, Inst.labels, List.mem_append, or_imp, forall_and] at hE hF
    exact ev_binary_sd_op H h0 h1 (fun a b => rfl) hE.1 hE.2 hF hg
  case Maxsd a b =>
    simp only [Inst.exprs, Inst.labels, List.mem_append, or_imp, forall_and] at hE hF
    exact ev_binary_sd_op H h0 h1 (fun a b => rfl) hE.1 hE.2 hF hg
  case Idiv a =>
    exact ev_divide_op (sz := .QWORD) (b := true) H h0 h1 (fun a => rfl) hE hF hg
  case Idivl a =>
    exact ev_divide_op (sz := .DWORD) (b := true) H h0 h1 (fun a => rfl) hE hF hg
  case Div a =>
    exact ev_divide_op (sz := .QWORD) (b := false) H h0 h1 (fun a => rfl) hE hF hg
  case Divl a =>
    exact ev_divide_op (sz := .DWORD) (b := false) H h0 h1 (fun a => rfl) hE hF hg
  case Pushq a =>
    exact ev_push_pop H h0 h1 (fun a => rfl) hE hF hg
  case Popq a =>
    exact ev_push_pop H h0 h1 (fun a => rfl) hE hF hg
  case Roundpd a b e =>
    simp only [Inst.exprs, Inst.labels, List.mem_append, or_imp, forall_and] at hE hF
    exact ev_roundpd H h0 h1 (hS trivial) hE.1.1 hE.1.2 (hE.2 e (by simp)) hF hg
  case Movsxl a b =>
    simp only [Inst.exprs, Inst.labels, List.mem_append, or_imp, forall_and] at hE hF
    obtain ⟨hE, hE'⟩ := hE
    cases hg
    show Does S _ exec (evRegRm U _ a b)
    exact Does.regRm h0 (Gives.reg H hE) (Gives.rm H hE' hF) fun _ _ _ => rfl
  case Movzxw a b =>
    simp only [Inst.exprs, Inst.labels, List.mem_append, or_imp, forall_and] at hE hF
    obtain ⟨hE, hE'⟩ := hE
    cases hg
    show Does S _ exec (evRegRm U _ a b)
    exact Does.regRm h0 (Gives.reg H hE) (Gives.rm H hE' hF) fun _ _ _ => rfl
  case Movsxw a b =>
    simp only [Inst.exprs, Inst.labels, List.mem_append, or_imp, forall_and] at hE hF
    obtain ⟨hE, hE'⟩ := hE
    cases hg
    show Does S _ exec (evRegRm U _ a b)
    exact Does.regRm h0 (Gives.reg H hE) (Gives.rm H hE' hF) fun _ _ _ => rfl
  case Movzxb a b =>
    simp only [Inst.exprs, Inst.labels, List.mem_append, or_imp, forall_and] at hE hF
    obtain ⟨hE, hE'⟩ := hE
    cases hg
    show Does S _ exec (evRegRm U _ a b)
    exact Does.regRm h0 (Gives.reg H hE) (Gives.rm H hE' hF) fun _ _ _ => rfl
  case Movsxb a b =>
    simp only [Inst.exprs, Inst.labels, List.mem_append, or_imp, forall_and] at hE hF
    obtain ⟨hE, hE'⟩ := hE
    cases hg
    show Does S _ exec (evRegRm U _ a b)
    exact Does.regRm h0 (Gives.reg H hE) (Gives.rm H hE' hF) fun _ _ _ => rfl
  case Cqo => cases hg; exact Does.jit fun _ => rfl
  case Cdq => cases hg; exact Does.jit fun _ => rfl
  case Int3 => cases hg; exact Does.jit fun _ => rfl
  case Leave => cases hg; exact Does.jit fun _ => rfl
  case Ret => cases hg; exact Does.jit fun _ => rfl
  case Syscall => cases hg; exact Does.jit fun _ => rfl
  case F64 v => cases hg; exact Does.jit fun _ => rfl
  case I64 v => cases hg; exact Does.jit fun _ => rfl
  case Label l =>
    cases hg
    exact ev_label H h0 h1 (hF l (by simp [Inst.labels])) (k := .Label) fun _ _ => rfl
  case Jcc c l =>
    cases hg
    exact ev_label H h0 h1 (hF l (by simp [Inst.labels])) (k := .Jcc c) fun _ _ => rfl
  case Xchg sz a b =>
    simp only [Inst.exprs, Inst.labels, List.mem_append, or_imp, forall_and] at hE hF
    exact ev_xchg H h0 h1 hu hE.1 hE.2 hF.1 hF.2 hg
  case Testq a b =>
    simp only [Inst.exprs, Inst.labels, List.mem_append, or_imp, forall_and] at hE hF
    exact ev_testq H h0 h1 hu hE.1 hE.2 hF hg
  case Testb a b =>
    simp only [Inst.exprs, Inst.labels, List.mem_append, or_imp, forall_and] at hE hF
    exact ev_testb H h0 h1 hu hE.1 hE.2 hF hg
  case Negq a =>
    cases hg
    exact Does.map (Does.arg1 h0 (Gives.rm H hE hF)) fun _ _ => rfl
  case Setcc c a =>
    cases hg
    exact Does.map (Does.arg1 h0 (Gives.rm H hE hF)) fun _ _ => rfl
  case UComIsd a b =>
    simp only [Inst.exprs, Inst.labels, List.mem_append, or_imp, forall_and] at hE hF
    cases hg
    exact Does.emit_regRm h0 h1 (Gives.xmm H hE.1) (Gives.xm H hE.2 hF) fun _ _ _ => rfl
  case Andpd a b =>
    simp only [Inst.exprs, Inst.labels, List.mem_append, or_imp, forall_and] at hE hF
    cases hg
    exact Does.emit_regRm h0 h1 (Gives.xmm H hE.1) (Gives.xm H hE.2 hF) fun _ _ _ => rfl
  case Xorpd a b =>
    simp only [Inst.exprs, Inst.labels, List.mem_append, or_imp, forall_and] at hE hF
    cases hg
    exact Does.emit_regRm h0 h1 (Gives.xmm H hE.1) (Gives.xm H hE.2 hF) fun _ _ _ => rfl
  case Sqrtpd a b =>
    simp only [Inst.exprs, Inst.labels, List.mem_append, or_imp, forall_and] at hE hF
    cases hg
    exact Does.emit_regRm h0 h1 (Gives.xmm H hE.1) (Gives.xm H hE.2 hF) fun _ _ _ => rfl
  case Sqrtsd a b =>
    simp only [Inst.exprs, Inst.labels, List.mem_append, or_imp, forall_and] at hE hF
    cases hg
    exact Does.emit_regRm h0 h1 (Gives.xmm H hE.1) (Gives.xm H hE.2 hF) fun _ _ _ => rfl
  case Xorps a b =>
    simp only [Inst.exprs, Inst.labels, List.mem_append, or_imp, forall_and] at hE hF
    cases hg
    exact Does.regRm h0 (Gives.xmm H hE.1) (Gives.xm H hE.2 hF) fun _ _ _ => rfl
  case Cvtsi2sdq a b =>
    simp only [Inst.exprs, Inst.labels, List.mem_append, or_imp, forall_and] at hE hF
    cases hg
    exact Does.emit_regRm h0 h1 (Gives.xmm H hE.1) (Gives.rm H hE.2 hF) fun _ _ _ => rfl
  case Cvttsd2siq a b =>
    simp only [Inst.exprs, Inst.labels, List.mem_append, or_imp, forall_and] at hE hF
    cases hg
    exact Does.emit_regRm h0 h1 (Gives.reg H hE.1) (Gives.xm H hE.2 hF) fun _ _ _ => rfl
  case Cmovcc sz c a b =>
    simp only [Inst.exprs, Inst.labels, List.mem_append, or_imp, forall_and] at hE hF
    cases sz <;> cases hg <;> first
      | exact Does.regRm h0 (Gives.reg H hE.1) (Gives.rm H hE.2 hF) fun _ _ _ => rfl
      | exact Does.emit_regRm h0 h1 (Gives.reg H hE.1) (Gives.rm H hE.2 hF) fun _ _ _ => rfl
  case Movsd a b =>
    simp only [Inst.exprs, Inst.labels, List.mem_append, or_imp, forall_and] at hE hF
    show Does S g exec (evMovsd U a b)
    cases a with
    | xmm x =>
      cases hg
      exact Does.emit_regRm h0 h1 (Gives.xmm H hE.1) (Gives.xm H hE.2 hF.2) fun _ _ _ => rfl
    | ind a =>
      cases b with
      | ind b => cases hg
      | xmm y =>
        cases hg
        simp only [evMovsd, evXm_xmm]
        exact Does.emit_regRm h0 h1 (Gives.xmm H hE.2) (Gives.ind H hE.1 hF.1) fun _ _ _ => rfl
  case Imul a b =>
    simp only [Inst.exprs, Inst.labels, List.mem_append, or_imp, forall_and] at hE hF
    show Does S g exec (evRmi U a >>= fun a => evRmi U b >>= fun b => Pure.pure (.Imul a b))
    cases a <;> cases b <;> cases hg <;> simp only [evRmi_reg, evRmi_ind]
    · exact Does.regRm h0 (Gives.reg H hE.1) (Gives.rm_reg H hE.2) fun _ _ _ => rfl
    · exact Does.regRm h0 (Gives.reg H hE.1) (Gives.ind H hE.2 hF.2) fun _ _ _ => rfl
  case Lea a b =>
    simp only [Inst.exprs, Inst.labels, List.mem_append, or_imp, forall_and] at hE hF
    show Does S g exec (evRm U a >>= fun a => evRm U b >>= fun b => Pure.pure (.Lea a b))
    cases a <;> cases b <;> cases hg
    simp only [evRm_reg, evRm_ind]
    exact Does.regRm h0 (Gives.reg H hE.1) (Gives.ind H hE.2 hF.2) fun _ _ _ => rfl
  case Jmp d =>
    show Does S g exec (evDest U .Jmp d)
    cases d with
    | reg n => cases hg; exact Does.jit fun _ => rfl
    | ind a => cases hg; exact Does.map (Does.arg1 h0 (Gives.ind H hE hF)) fun _ _ => rfl
    | rel l =>
      cases hg
      exact ev_label H h0 h1 (hF l (by simp [Inst.labels, Dest.labels])) (k := fun l => .Jmp (.rel l)) fun _ _ => rfl
    | disp e => cases hg
  case Call d =>
    show Does S g exec (evDest U .Call d)
    cases d with
    | reg n => cases hg; exact Does.jit fun _ => rfl
    | ind a => cases hg; exact Does.map (Does.arg1 h0 (Gives.ind H hE hF)) fun _ _ => rfl
    | rel l =>
      cases hg
      show Does S _ exec ((Pure.pure (evLabel U l) : W ω DestLabel) >>= fun l => Pure.pure (.Call (.rel l)))
      exact Does.emit h0 h1 (Does.arg1_jit (fun _ => rfl) (Gives.label H (hF l (by simp [Inst.labels, Dest.labels]))))
        fun _ _ => rfl
    | disp e =>
      cases hg
      refine Does.val_bind h0 (Gives.eval H (hE e (by simp [Inst.exprs, Dest.exprs]))) fun v => ?_
      have hx : ∀ s, exec (.Call (.disp v)) s = (match i32TryFrom v with
        | some imm => (do emitb 0xe8; emitl imm : M Unit)
        | none => M.panic .immOutOfRange) s := fun _ => rfl
      simp only [id, G.jit_seq]
      unfold G.tryI32
      cases hv : i32TryFrom v with
      | none =>
        simp only [hv] at hx ⊢
        exact Does.block (Does.map (y := (Pure.pure () : W ω Unit)) (k := fun _ => (.Call (.disp v) : Inst V DestLabel))
          (Does.message h0 (Gives.eval H (hE e (by simp [Inst.exprs, Dest.exprs])))) fun _ => hx)
      | some imm =>
        simp only [hv] at hx ⊢
        exact Does.block (Does.letVar (by decide) (Does.jit hx))

end
/-! ### One step -/

section
variable {g : G ε lam ω Unit} {I : γ → M Unit} {x : W ω γ}

theorem Does.ok (h : Does S g I x) {st st' : GState ε lam ω} (c : Clean st.hidden) (hg : g st = .ok () st') :
    ∃ b, x st.world = (some b, st'.world) ∧ I b st.jit = .ok () st'.jit ∧ Clean st'.hidden := by
  have h := h st c
  rcases hx : x st.world with ⟨_ | b, w⟩
  · rw [hx] at h
    obtain ⟨p, st1, e, _⟩ := h
    rw [hg] at e; cases e
  · rw [hx] at h
    dsimp only at h
    cases hI : I b st.jit with
    | ok u s =>
      rw [hI] at h
      obtain ⟨st1, e, j, w1, c1⟩ := h
      rw [hg] at e; cases e
      exact ⟨b, by rw [w1], by rw [hI, ← j], c1⟩
    | panic p s =>
      rw [hI] at h
      obtain ⟨p', st1, e, _⟩ := h
      rw [hg] at e; cases e

theorem Does.run (h : Does S g I x) {st : GState ε lam ω} (c : Clean st.hidden) {b : γ} {w : ω} {s : JitMemory}
    (hx : x st.world = (some b, w)) (hI : I b st.jit = .ok () s) :
    ∃ st', g st = .ok () st' ∧ st'.jit = s ∧ st'.world = w ∧ Clean st'.hidden := by
  have h := h st c
  rw [hx] at h
  dsimp only at h
  rw [hI] at h
  exact h

theorem Does.panicked (h : Does S g I x) {st st' : GState ε lam ω} (c : Clean st.hidden) {p : Panic}
    (hg : g st = .panic p st') :
    (∃ b w p', x st.world = (some b, w) ∧ I b st.jit = .panic p' st'.jit ∧ (p = p' ∨ p = .userCode)) ∨
    (∃ w, x st.world = (none, w) ∧ S st.jit st'.jit) := by
  have h := h st c
  rcases hx : x st.world with ⟨_ | b, w⟩
  · rw [hx] at h
    obtain ⟨p', st1, e, hs⟩ := h
    rw [hg] at e; cases e
    exact Or.inr ⟨w, rfl, hs⟩
  · rw [hx] at h
    dsimp only at h
    cases hI : I b st.jit with
    | ok u s =>
      rw [hI] at h
      obtain ⟨st1, e, _⟩ := h
      rw [hg] at e; cases e
    | panic p' s =>
      rw [hI] at h
      obtain ⟨p'', st1, e, j, hp⟩ := h
      rw [hg] at e; cases e
      exact Or.inl ⟨b, w, p', rfl, by rw [hI, j], hp⟩

theorem Does.raises (h : Does S g I x) {st : GState ε lam ω} (c : Clean st.hidden) {w : ω}
    (hx : x st.world = (none, w)) : ∃ p st', g st = .panic p st' ∧ S st.jit st'.jit := by
  have h := h st c
  rw [hx] at h
  exact h

end

/-! ### Lists of statements -/

/-- What remains of a statement whose evaluation panics. -/
def Left (i : Inst ε lam) (s s' : JitMemory) : Prop := Stray s s' ∨ IsRoundpd i ∧ Half s s'

theorem ev_stmt (H : Knows U E F) {i : Inst ε lam} (hu : ¬ Unsettled U i) (hE : ∀ e ∈ i.exprs, E e)
    (hF : ∀ l ∈ i.labels, F l) {g : G ε lam ω Unit} (hg : Expand.compile U i = .ok g) :
    Does (Left i) g exec (evaluate U i) :=
  ev_compile H (fun _ => Or.inl (Or.inl rfl)) (fun b s s' h => Or.inl (Or.inr ⟨b, h⟩)) (fun h _ _ h' => Or.inr ⟨h, h'⟩)
    hu hE hF hg

/-- Generated code of a list of statements. -/
theorem compileAll_cons {i : Inst ε lam} {is : List (Inst ε lam)} {gs : G ε lam ω Unit}
    (h : Expand.compileAll U (i :: is) = .ok gs) :
    ∃ g gs', Expand.compile U i = .ok g ∧ Expand.compileAll U is = .ok gs' ∧ gs = (do g; gs') := by
  unfold Expand.compileAll at h
  cases hi : Expand.compile U i with
  | error e => rw [hi] at h; cases h
  | ok g =>
    rw [hi] at h
    cases his : Expand.compileAll U is with
    | error e => rw [his] at h; cases h
    | ok gs' =>
      rw [his] at h; cases h
      exact ⟨g, gs', rfl, rfl, rfl⟩

theorem G.bind_inv_ok {g : G ε lam ω Unit} {f : G ε lam ω β} {st st' : GState ε lam ω} {b : β}
    (h : (do g; f : G ε lam ω β) st = .ok b st') : ∃ st1, g st = .ok () st1 ∧ f st1 = .ok b st' := by
  cases hg : g st with
  | panic p st1 => rw [G.bind_panic hg] at h; cases h
  | ok u st1 => rw [G.bind_ok hg] at h; exact ⟨st1, rfl, h⟩

variable {is : List (Inst ε lam)} {gs : G ε lam ω Unit}

theorem all_ok (H : Knows U E F) (hu : ∀ i ∈ is, ¬ Unsettled U i) (hE : ∀ i ∈ is, ∀ e ∈ i.exprs, E e)
    (hF : ∀ i ∈ is, ∀ l ∈ i.labels, F l) (hg : Expand.compileAll U is = .ok gs) {st st' : GState ε lam ω}
    (c : Clean st.hidden) (hr : gs st = .ok () st') :
    Assembles U is st.jit st.world st'.jit st'.world := by
  induction is generalizing gs st with
  | nil =>
    cases hg; cases hr; exact .done
  | cons i is ih =>
    obtain ⟨g, gs', hi, his, rfl⟩ := compileAll_cons hg
    obtain ⟨st1, e1, e2⟩ := G.bind_inv_ok hr
    obtain ⟨b, hb, hI, c1⟩ := (ev_stmt H (hu i (by simp)) (hE i (by simp)) (hF i (by simp)) hi).ok c e1
    exact .next hb hI (ih (fun j hj => hu j (by simp [hj])) (fun j hj => hE j (by simp [hj]))
      (fun j hj => hF j (by simp [hj])) his c1 e2)

theorem all_run (H : Knows U E F) (hu : ∀ i ∈ is, ¬ Unsettled U i) (hE : ∀ i ∈ is, ∀ e ∈ i.exprs, E e)
    (hF : ∀ i ∈ is, ∀ l ∈ i.labels, F l) (hg : Expand.compileAll U is = .ok gs) {st : GState ε lam ω}
    (c : Clean st.hidden) {s : JitMemory} {w : ω} (hr : Assembles U is st.jit st.world s w) :
    ∃ st', gs st = .ok () st' ∧ st'.jit = s ∧ st'.world = w ∧ Clean st'.hidden := by
  induction is generalizing gs st with
  | nil =>
    cases hg; cases hr
    exact ⟨st, rfl, rfl, rfl, c⟩
  | cons i is ih =>
    obtain ⟨g, gs', hi, his, rfl⟩ := compileAll_cons hg
    cases hr with
    | next hb hI hrest =>
      obtain ⟨st1, e1, rfl, rfl, c1⟩ :=
        (ev_stmt H (hu i (by simp)) (hE i (by simp)) (hF i (by simp)) hi).run c hb hI
      obtain ⟨st2, e2, r⟩ := ih (fun j hj => hu j (by simp [hj])) (fun j hj => hE j (by simp [hj]))
        (fun j hj => hF j (by simp [hj])) his c1 hrest
      exact ⟨st2, (G.bind_ok e1).trans e2, r⟩

theorem all_panicked (H : Knows U E F) (hu : ∀ i ∈ is, ¬ Unsettled U i) (hE : ∀ i ∈ is, ∀ e ∈ i.exprs, E e)
    (hF : ∀ i ∈ is, ∀ l ∈ i.labels, F l) (hg : Expand.compileAll U is = .ok gs) {st st' : GState ε lam ω}
    (c : Clean st.hidden) {p : Panic} (hr : gs st = .panic p st') :
    ∃ is1 i is2 s1 w1, is = is1 ++ i :: is2 ∧ Assembles U is1 st.jit st.world s1 w1 ∧
      ((∃ j w2 p', evaluate U i w1 = (some j, w2) ∧ (Op.inst j).run s1 = .panic p' st'.jit ∧
          (p = p' ∨ p = .userCode)) ∨
       (∃ w2, evaluate U i w1 = (none, w2) ∧ Left i s1 st'.jit)) := by
  induction is generalizing gs st with
  | nil => cases hg; cases hr
  | cons i is ih =>
    obtain ⟨g, gs', hi, his, rfl⟩ := compileAll_cons hg
    have hd := ev_stmt H (hu i (by simp)) (hE i (by simp)) (hF i (by simp)) hi
    cases h1 : g st with
    | panic q st1 =>
      rw [G.bind_panic h1] at hr
      cases hr
      exact ⟨[], i, is, st.jit, st.world, rfl, .done, hd.panicked c h1⟩
    | ok u st1 =>
      rw [G.bind_ok h1] at hr
      obtain ⟨b, hb, hI, c1⟩ := hd.ok c h1
      obtain ⟨is1, j, is2, s1, w1, rfl, ha, r⟩ := ih (fun j hj => hu j (by simp [hj]))
        (fun j hj => hE j (by simp [hj])) (fun j hj => hF j (by simp [hj])) his c1 hr
      exact ⟨i :: is1, j, is2, s1, w1, rfl, .next hb hI ha, r⟩

theorem all_raises (H : Knows U E F) {is1 is2 : List (Inst ε lam)} {i : Inst ε lam}
    (hu : ∀ j ∈ is1 ++ i :: is2, ¬ Unsettled U j) (hE : ∀ j ∈ is1 ++ i :: is2, ∀ e ∈ j.exprs, E e)
    (hF : ∀ j ∈ is1 ++ i :: is2, ∀ l ∈ j.labels, F l) (hg : Expand.compileAll U (is1 ++ i :: is2) = .ok gs)
    {st : GState ε lam ω} (c : Clean st.hidden) {s1 : JitMemory} {w1 w2 : ω}
    (ha : Assembles U is1 st.jit st.world s1 w1) (hp : evaluate U i w1 = (none, w2)) :
    ∃ p st', gs st = .panic p st' ∧ Left i s1 st'.jit := by
  induction is1 generalizing gs st with
  | nil =>
    cases ha
    obtain ⟨g, gs', hi, his, rfl⟩ := compileAll_cons hg
    obtain ⟨p, st', e, hl⟩ := (ev_stmt H (hu i (by simp)) (hE i (by simp)) (hF i (by simp)) hi).raises c hp
    exact ⟨p, st', G.bind_panic e, hl⟩
  | cons k is1 ih =>
    obtain ⟨g, gs', hi, his, rfl⟩ := compileAll_cons hg
    cases ha with
    | next hb hI hrest =>
      obtain ⟨st1, e1, rfl, rfl, c1⟩ :=
        (ev_stmt H (hu k (by simp)) (hE k (by simp)) (hF k (by simp)) hi).run c hb hI
      obtain ⟨p, st', e, hl⟩ := ih (fun j hj => hu j (List.mem_cons_of_mem _ hj))
        (fun j hj => hE j (List.mem_cons_of_mem _ hj)) (fun j hj => hF j (List.mem_cons_of_mem _ hj)) his c1 hrest
      exact ⟨p, st', (G.bind_ok e1).trans e, hl⟩

/-- The code of a macro call and of its statements. -/
theorem monoasm_inv {g : G ε lam ω Unit} (h : Expand.monoasm U is = .ok g) :
    ∃ gs, Expand.compileAll U is = .ok gs ∧ g = G.block (do G.letVar "jit" .jit; gs) := by
  unfold Expand.monoasm at h
  cases hg : Expand.compileAll U is with
  | error e => rw [hg] at h; cases h
  | ok gs => rw [hg] at h; cases h; exact ⟨gs, rfl, rfl⟩

section
variable {names : ε → List String} {lname : lam → String}

/-- In a call that avoids the reserved names, expressions have their values of the user's scope. -/
theorem knows_of_avoids (hL : Lexical U names lname) (hA : ∀ i ∈ is, Avoids names lname i) :
    Knows U (fun e => ∃ i ∈ is, e ∈ i.exprs) (fun l => ∃ i ∈ is, l ∈ i.labels) where
  value := by
    rintro e ⟨i, hi, he⟩ h c
    exact hL.value e h userScope fun x hx => c x ((hA i hi).1 e he x hx)
  label := by
    rintro l ⟨i, hi, hl⟩ h c
    exact hL.label l _ _ (c _ ((hA i hi).2 l hl))

theorem clean_jit : Clean (fun y => if y = "jit" then some MVal.jit else userScope y) :=
  clean_userScope.set (by decide) _

/-- The state after `let mut jit = ..`. -/
def begun (s : JitMemory) (w : ω) : GState ε lam ω :=
  ⟨s, fun y => if y = "jit" then some .jit else userScope y, w, []⟩

theorem block_jit (gs : G ε lam ω Unit) (s : JitMemory) (w : ω) :
    G.block (do G.letVar "jit" .jit; gs) (start s w) = match gs (begun s w) with
      | .ok a st => .ok a { st with hidden := userScope }
      | .panic p st => .panic p { st with hidden := userScope } := by
  have e : (do G.letVar "jit" .jit; gs : G ε lam ω Unit) (start s w) = gs (begun s w) := by
    refine G.bind_ok (a := ()) ?_
    unfold G.letVar; rfl
  unfold G.block
  rw [e]
  cases gs (begun s w) <;> rfl

end
end Monoasm
