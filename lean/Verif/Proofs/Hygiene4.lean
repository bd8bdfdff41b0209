import Verif.Proofs.Hygiene3
/-
  If the values of expressions do not depend on the reserved names or on side effects, then running
  the expansion of a statement does what `compile` does on the values.
-/

set_option linter.unusedSimpArgs false
set_option linter.unusedVariables false

namespace Monoasm
open Spec G JitMemory
variable {ε lam ω : Type} {E : ε → Prop} {F : lam → Prop}

/-- `g` returns `a` without touching the code memory. -/
def Val {α} (g : G ε lam ω α) (a : α) : Prop :=
  ∀ st, Clean st.hidden → ∃ st', g st = .ok a st' ∧ st'.jit = st.jit ∧ Clean st'.hidden

/-- `g` does to the code memory what `m` does. -/
def By {α} (g : G ε lam ω α) (m : M α) : Prop :=
  ∀ st, Clean st.hidden →
    match m st.jit with
    | .ok a s => ∃ st', g st = .ok a st' ∧ st'.jit = s ∧ Clean st'.hidden
    | .panic e s => ∃ st', g st = .panic e st' ∧ st'.jit = s

theorem Val.pure {α} {a : α} : Val (Pure.pure a : G ε lam ω α) a :=
  fun st c => ⟨st, rfl, rfl, c⟩

theorem Val.bind {α β} {g : G ε lam ω α} {f : α → G ε lam ω β} {a : α} {b : β} (h1 : Val g a)
    (h2 : Val (f a) b) : Val (g >>= f) b := by
  intro st c
  obtain ⟨st1, e1, j1, c1⟩ := h1 st c
  obtain ⟨st2, e2, j2, c2⟩ := h2 st1 c1
  refine ⟨st2, ?_, j2.trans j1, c2⟩
  show (match g st with
    | .ok a st' => f a st'
    | .panic e st' => .panic e st') = _
  rw [e1]; exact e2

theorem By.val_bind {α β} {g : G ε lam ω α} {f : α → G ε lam ω β} {a : α} {m : M β} (h1 : Val g a)
    (h2 : By (f a) m) : By (g >>= f) m := by
  intro st c
  obtain ⟨st1, e1, j1, c1⟩ := h1 st c
  have h := h2 st1 c1
  rw [j1] at h
  have e : (g >>= f) st = f a st1 := by
    show (match g st with
      | .ok a st' => f a st'
      | .panic e st' => .panic e st') = _
    rw [e1]
  rw [e]
  exact h

theorem By.bind {α β} {g : G ε lam ω α} {f : α → G ε lam ω β} {m : M α} {k : α → M β} (h1 : By g m)
    (h2 : ∀ a, By (f a) (k a)) : By (g >>= f) (m >>= k) := by
  intro st c
  have h := h1 st c
  show match (match m st.jit with
    | .ok a s' => k a s'
    | .panic e s' => .panic e s') with
    | .ok _ s => _
    | .panic _ s => _
  cases hm : m st.jit with
  | panic e s =>
    rw [hm] at h
    obtain ⟨st1, e1, j1⟩ := h
    refine ⟨st1, ?_, j1⟩
    show (match g st with
      | .ok a st' => f a st'
      | .panic e st' => .panic e st') = _
    rw [e1]
  | ok a s =>
    rw [hm] at h
    obtain ⟨st1, e1, j1, c1⟩ := h
    have h' := h2 a st1 c1
    rw [j1] at h'
    have e : (g >>= f) st = f a st1 := by
      show (match g st with
        | .ok a st' => f a st'
        | .panic e st' => .panic e st') = _
      rw [e1]
    rw [e]
    exact h'

theorem By.pure {α} {a : α} : By (Pure.pure a : G ε lam ω α) (Pure.pure a) :=
  fun st c => ⟨st, rfl, rfl, c⟩

theorem By.jit {α} {m : M α} : By (G.jit m : G ε lam ω α) m := by
  intro st c
  unfold G.jit
  cases m st.jit with
  | ok a s => exact ⟨_, rfl, rfl, c⟩
  | panic e s => exact ⟨_, rfl, rfl⟩

theorem By.panic {α} {e : Panic} : By (G.panic e : G ε lam ω α) (M.panic e) :=
  fun st c => ⟨st, rfl, rfl⟩

theorem By.block {α} {g : G ε lam ω α} {m : M α} (h : By g m) : By (G.block g) m := by
  intro st c
  have := h st c
  revert this
  cases m st.jit with
  | ok a s =>
    rintro ⟨st', e, j, c'⟩
    refine ⟨{ st' with hidden := st.hidden }, ?_, j, c⟩
    unfold G.block; rw [e]
  | panic e s =>
    rintro ⟨st', e', j⟩
    refine ⟨{ st' with hidden := st.hidden }, ?_, j⟩
    unfold G.block; rw [e']

theorem By.ite {α} {p : Prop} [Decidable p] {g g' : G ε lam ω α} {m m' : M α}
    (h1 : By g m) (h2 : By g' m') : By (if p then g else g') (if p then m else m') := by
  split
  · exact h1
  · exact h2

theorem Val.letVar {x : String} {v : MVal} (hx : x ∈ reserved) :
    Val (G.letVar x v : G ε lam ω Unit) () :=
  fun st c => ⟨_, rfl, rfl, c.set hx v⟩

theorem By.arg1 {β} {f : β → M Unit} {g : G ε lam ω β} {b : β} (h : Val g b) :
    By (G.arg1 f g) (f b) := By.val_bind h By.jit

theorem By.regRm {f : Reg → Rm → M Unit} {r : G ε lam ω Reg} {a : G ε lam ω Rm} {x : Reg} {y : Rm}
    (h1 : Val r x) (h2 : Val a y) : By (G.regRm f r a) (f x y) :=
  By.val_bind h1 (By.val_bind h2 By.jit)

/-- The values of expressions and labels, as long as only reserved names are hidden. -/
structure Values (U : User ε lam ω) (E : ε → Prop) (F : lam → Prop) (ρ : ε → V) (σ : lam → DestLabel) :
    Prop where
  value : ∀ e, E e → ∀ h, Clean h → ∀ w, (U.value e h w).1 = some (ρ e)
  label : ∀ l, F l → ∀ h, Clean h → U.label l h = σ l

variable {U : User ε lam ω} {ρ : ε → V} {σ : lam → DestLabel}

theorem Val.eval (H : Values U E F ρ σ) {e : ε} (h : E e) : Val (G.eval U e) (ρ e) := by
  intro st c
  refine ⟨{ st with world := (U.value e st.hidden st.world).2, trace := st.trace ++ [.expr e st.hidden] },
    ?_, rfl, c⟩
  have := H.value e h _ c st.world
  unfold G.eval
  cases hv : U.value e st.hidden st.world with
  | mk o w =>
    rw [hv] at this
    cases this
    rfl

theorem Val.label (H : Values U E F ρ σ) {l : lam} (h : F l) : Val (G.label U l) (σ l) := by
  intro st c
  refine ⟨{ st with trace := st.trace ++ [.label l st.hidden] }, ?_, rfl, c⟩
  show GRes.ok _ _ = _
  rw [H.label l h _ c]

theorem Val.reg (H : Values U E F ρ σ) {r : Register ε} (h : ∀ e ∈ r.exprs, E e) :
    Val (G.reg U r) (r.map ρ).toReg := by
  cases r with
  | reg n => exact Val.pure
  | expr e => exact Val.bind (Val.eval H (h e (by simp [Register.exprs]))) Val.pure

theorem Val.xmm (H : Values U E F ρ σ) {r : XmmReg ε} (h : ∀ e ∈ r.exprs, E e) :
    Val (G.xmm U r) (r.map ρ).toReg := by
  cases r with
  | no n => exact Val.pure
  | expr e => exact Val.bind (Val.eval H (h e (by simp [XmmReg.exprs]))) Val.pure

theorem Val.disp (H : Values U E F ρ σ) {d : MDisp ε lam} (h : ∀ e ∈ d.exprs, E e)
    (h' : ∀ l ∈ d.labels, F l) : Val (G.disp U d) (d.map ρ σ).toDisp := by
  cases d with
  | imm n => exact Val.pure
  | expr n e =>
    cases n with
    | false => exact Val.bind (Val.eval H (h e (by simp [MDisp.exprs]))) Val.pure
    | true => exact Val.bind (Val.eval H (h e (by simp [MDisp.exprs]))) Val.pure
  | label l => exact Val.bind (Val.label H (h' l (by simp [MDisp.labels]))) Val.pure

theorem Val.scale (H : Values U E F ρ σ) {s : MScale ε} (h : ∀ e ∈ s.exprs, E e) :
    Val (G.scale U s) (s.map ρ).toScale := by
  cases s with
  | none => exact Val.pure
  | s1 k r => exact Val.bind (Val.reg H h) Val.pure

theorem Val.ind (H : Values U E F ρ σ) {a : IndAddr ε lam} (h : ∀ e ∈ a.exprs, E e)
    (h' : ∀ l ∈ a.labels, F l) : Val (G.ind U a) (a.map ρ σ).toRm := by
  simp only [IndAddr.exprs, List.mem_append, or_imp, forall_and] at h
  exact Val.bind (Val.reg H h.1.1) (Val.bind (Val.disp H h.2 h') (Val.bind (Val.scale H h.1.2) Val.pure))

theorem Val.rm (H : Values U E F ρ σ) {a : RmOperand ε lam} (h : ∀ e ∈ a.exprs, E e)
    (h' : ∀ l ∈ a.labels, F l) : Val (G.rm U a) (a.map ρ σ).toRm := by
  cases a with
  | reg r => exact Val.bind (Val.reg H h) Val.pure
  | ind a => exact Val.ind H h h'

theorem Val.rm_reg (H : Values U E F ρ σ) {r : Register ε} (h : ∀ e ∈ r.exprs, E e) :
    Val (G.rm U (.reg r : RmOperand ε lam)) (Rm.reg (r.map ρ).toReg) :=
  Val.bind (Val.reg H h) Val.pure

theorem Val.xm (H : Values U E F ρ σ) {a : XmOperand ε lam} (h : ∀ e ∈ a.exprs, E e)
    (h' : ∀ l ∈ a.labels, F l) : Val (G.xm U a) (a.map ρ σ).toRm := by
  cases a with
  | xmm r => exact Val.bind (Val.xmm H h) Val.pure
  | ind a => exact Val.ind H h h'

theorem Val.letImm (H : Values U E F ρ σ) {i : ε} (h : E i) : Val (G.letImm U i) (ρ i) :=
  Val.bind (Val.eval H h) (Val.bind (Val.letVar (by decide)) Val.pure)

/-- In a branch `if let Ok(imm) = ..`. -/
theorem By.ok {x : String} {v : MVal} {g : G ε lam ω Unit} {m : M Unit} (hx : x ∈ reserved) (h : By g m) :
    By (G.block (do G.letVar x v; g)) m :=
  By.block (By.val_bind (Val.letVar hx) h)

end Monoasm
