import Verif.Proofs.Hygiene5
import Verif.Spec.Evaluate
import Verif.Proofs.Run
/-
  Running the expansion of a statement is evaluating its expressions in the order of `Spec.evaluate` and
  then assembling the statement with the values.
-/

set_option linter.unusedSimpArgs false
set_option linter.unusedVariables false

namespace Monoasm
open Spec G JitMemory
variable {ε lam ω : Type} {E : ε → Prop} {F : lam → Prop} {U : User ε lam ω}
  {S : JitMemory → JitMemory → Prop} {α β γ δ : Type}

/-- Expressions have the values that they have in the user's scope. -/
structure Knows (U : User ε lam ω) (E : ε → Prop) (F : lam → Prop) : Prop where
  value : ∀ e, E e → ∀ h, Clean h → U.value e h = U.value e userScope
  label : ∀ l, F l → ∀ h, Clean h → U.label l h = U.label l userScope

/-- `g` evaluates as `x` does, and does not touch the code memory. -/
def Gives (g : G ε lam ω β) (x : W ω α) (p : α → β) : Prop :=
  ∀ st, Clean st.hidden →
    match x st.world with
    | (some a, w) => ∃ st', g st = .ok (p a) st' ∧ st'.jit = st.jit ∧ st'.world = w ∧ Clean st'.hidden
    | (none, _) => ∃ st', g st = .panic .userCode st' ∧ st'.jit = st.jit

/-- `g` evaluates as `x` does, and then does to the code memory what `I` says. If the evaluation panics, so
    does `g`, and `S` relates the code memory before and after. -/
def Does (S : JitMemory → JitMemory → Prop) (g : G ε lam ω Unit) (I : γ → M Unit) (x : W ω γ) : Prop :=
  ∀ st, Clean st.hidden →
    match x st.world with
    | (some b, w) =>
      match I b st.jit with
      | .ok _ s => ∃ st', g st = .ok () st' ∧ st'.jit = s ∧ st'.world = w ∧ Clean st'.hidden
      | .panic p s => ∃ p' st', g st = .panic p' st' ∧ st'.jit = s ∧ (p' = p ∨ p' = .userCode)
    | (none, _) => ∃ p st', g st = .panic p st' ∧ S st.jit st'.jit

theorem G.bind_ok {g : G ε lam ω α} {f : α → G ε lam ω β} {st st' : GState ε lam ω} {a : α}
    (h : g st = .ok a st') : (g >>= f) st = f a st' := by
  show (match g st with
    | .ok a st' => f a st'
    | .panic e st' => .panic e st') = _
  rw [h]

theorem G.bind_panic {g : G ε lam ω α} {f : α → G ε lam ω β} {st st' : GState ε lam ω} {p : Panic}
    (h : g st = .panic p st') : (g >>= f) st = .panic p st' := by
  show (match g st with
    | .ok a st' => f a st'
    | .panic e st' => .panic e st') = _
  rw [h]

theorem W.bind_some {x : W ω α} {f : α → W ω β} {w w' : ω} {a : α} (h : x w = (some a, w')) :
    (x >>= f) w = f a w' := by
  show (match x w with
    | (some a, w') => f a w'
    | (none, w') => (none, w')) = _
  rw [h]

theorem W.bind_none {x : W ω α} {f : α → W ω β} {w w' : ω} (h : x w = (none, w')) :
    (x >>= f) w = (none, w') := by
  show (match x w with
    | (some a, w') => f a w'
    | (none, w') => (none, w')) = _
  rw [h]

theorem M.bind_ok' {m : M α} {f : α → M β} {s s' : JitMemory} {a : α} (h : m s = .ok a s') :
    (m >>= f) s = f a s' := by
  show (match m s with
    | .ok a s' => f a s'
    | .panic e s' => .panic e s') = _
  rw [h]

theorem M.bind_panic' {m : M α} {f : α → M β} {s s' : JitMemory} {p : Panic} (h : m s = .panic p s') :
    (m >>= f) s = .panic p s' := by
  show (match m s with
    | .ok a s' => f a s'
    | .panic e s' => .panic e s') = _
  rw [h]

theorem Gives.pure {a : α} {b : β} {p : α → β} (h : b = p a) :
    Gives (Pure.pure b : G ε lam ω β) (Pure.pure a) p :=
  fun st c => ⟨st, h ▸ rfl, rfl, rfl, c⟩

theorem Gives.bind {g : G ε lam ω β} {x : W ω α} {p : α → β} {f : β → G ε lam ω δ} {y : α → W ω γ}
    {q : γ → δ} (h1 : Gives g x p) (h2 : ∀ a, Gives (f (p a)) (y a) q) : Gives (g >>= f) (x >>= y) q := by
  intro st c
  have h := h1 st c
  rcases hx : x st.world with ⟨_ | a, w⟩
  · rw [hx] at h
    obtain ⟨st1, e1, j1⟩ := h
    rw [W.bind_none hx]
    exact ⟨st1, G.bind_panic e1, j1⟩
  · rw [hx] at h
    obtain ⟨st1, e1, j1, w1, c1⟩ := h
    have h := h2 a st1 c1
    rw [W.bind_some hx, G.bind_ok e1, ← w1, ← j1]
    exact h

theorem Gives.map {g : G ε lam ω β} {x : W ω α} {p : α → β} {q : γ → β} {k : α → γ} (h : Gives g x p)
    (hk : ∀ a, p a = q (k a)) : Gives g (x >>= fun a => Pure.pure (k a)) q := by
  intro st c
  have hi := h st c
  rcases hx : x st.world with ⟨_ | a, w⟩
  · rw [hx] at hi; rw [W.bind_none hx]; exact hi
  · rw [hx] at hi; rw [W.bind_some hx]
    obtain ⟨st', e, r⟩ := hi
    exact ⟨st', hk a ▸ e, r⟩

theorem Gives.eval (H : Knows U E F) {e : ε} (h : E e) : Gives (G.eval U e) (ev U e) id := by
  intro st c
  have := H.value e h _ c
  unfold ev G.eval
  rw [this]
  rcases U.value e userScope st.world with ⟨_ | v, w⟩
  · exact ⟨_, rfl, rfl⟩
  · exact ⟨_, rfl, rfl, rfl, c⟩

theorem Gives.label (H : Knows U E F) {l : lam} (h : F l) :
    Gives (G.label U l) (Pure.pure (evLabel U l)) id := by
  intro st c
  refine ⟨{ st with trace := st.trace ++ [.label l st.hidden] }, ?_, rfl, rfl, c⟩
  show GRes.ok _ _ = _
  rw [H.label l h _ c]; rfl

theorem Gives.reg (H : Knows U E F) {r : Register ε} (h : ∀ e ∈ r.exprs, E e) :
    Gives (G.reg U r) (evReg U r) Register.toReg := by
  cases r with
  | reg n => exact Gives.pure rfl
  | expr e => exact Gives.bind (Gives.eval H (h e (by simp [Register.exprs]))) fun a => Gives.pure rfl

theorem Gives.xmm (H : Knows U E F) {r : XmmReg ε} (h : ∀ e ∈ r.exprs, E e) :
    Gives (G.xmm U r) (evXmm U r) XmmReg.toReg := by
  cases r with
  | no n => exact Gives.pure rfl
  | expr e => exact Gives.bind (Gives.eval H (h e (by simp [XmmReg.exprs]))) fun a => Gives.pure rfl

theorem Gives.disp (H : Knows U E F) {d : MDisp ε lam} (h : ∀ e ∈ d.exprs, E e)
    (h' : ∀ l ∈ d.labels, F l) : Gives (G.disp U d) (evDisp U d) MDisp.toDisp := by
  cases d with
  | imm n => exact Gives.pure rfl
  | expr n e =>
    cases n with
    | false => exact Gives.bind (Gives.eval H (h e (by simp [MDisp.exprs]))) fun a => Gives.pure rfl
    | true => exact Gives.bind (Gives.eval H (h e (by simp [MDisp.exprs]))) fun a => Gives.pure rfl
  | label l =>
    exact Gives.bind (y := fun l => Pure.pure (MDisp.label l)) (Gives.label H (h' l (by simp [MDisp.labels])))
      fun a => Gives.pure rfl

theorem Gives.scale (H : Knows U E F) {s : MScale ε} (h : ∀ e ∈ s.exprs, E e) :
    Gives (G.scale U s : G ε lam ω Scale) (evScale U s) MScale.toScale := by
  cases s with
  | none => exact Gives.pure rfl
  | s1 k r => exact Gives.bind (Gives.reg H h) fun a => Gives.pure rfl

theorem Gives.ind (H : Knows U E F) {a : IndAddr ε lam} (h : ∀ e ∈ a.exprs, E e)
    (h' : ∀ l ∈ a.labels, F l) : Gives (G.ind U a) (evInd U a) IndAddr.toRm := by
  simp only [IndAddr.exprs, List.mem_append, or_imp, forall_and] at h
  exact Gives.bind (Gives.reg H h.1.1) fun a => Gives.bind (Gives.disp H h.2 h') fun b =>
    Gives.bind (Gives.scale H h.1.2) fun c => Gives.pure rfl

theorem Gives.rm (H : Knows U E F) {a : RmOperand ε lam} (h : ∀ e ∈ a.exprs, E e)
    (h' : ∀ l ∈ a.labels, F l) : Gives (G.rm U a) (evRm U a) RmOperand.toRm := by
  cases a with
  | reg r => exact Gives.bind (Gives.reg H h) fun a => Gives.pure rfl
  | ind a =>
    exact Gives.map (Gives.ind H h h') fun a => rfl

theorem Gives.rm_reg (H : Knows U E F) {r : Register ε} (h : ∀ e ∈ r.exprs, E e) :
    Gives (G.rm U (.reg r : RmOperand ε lam)) (evReg U r) (fun r => Rm.reg r.toReg) := by
  intro st c
  have hi := Gives.reg H h st c
  rcases hx : evReg U r st.world with ⟨_ | a', w⟩
  · rw [hx] at hi
    obtain ⟨st', e, j⟩ := hi
    exact ⟨st', G.bind_panic e, j⟩
  · rw [hx] at hi
    obtain ⟨st', e, j, w', c'⟩ := hi
    exact ⟨st', G.bind_ok e, j, w', c'⟩

theorem Gives.xmm_reg (H : Knows U E F) {r : XmmReg ε} (h : ∀ e ∈ r.exprs, E e) :
    Gives (do let y ← G.xmm U r; Pure.pure (Rm.reg y) : G ε lam ω Rm) (evXmm U r) (fun r => Rm.reg r.toReg) := by
  intro st c
  have hi := Gives.xmm H h st c
  rcases hx : evXmm U r st.world with ⟨_ | a', w⟩
  · rw [hx] at hi
    obtain ⟨st', e, j⟩ := hi
    exact ⟨st', G.bind_panic e, j⟩
  · rw [hx] at hi
    obtain ⟨st', e, j, w', c'⟩ := hi
    exact ⟨st', G.bind_ok e, j, w', c'⟩

theorem Gives.xm (H : Knows U E F) {a : XmOperand ε lam} (h : ∀ e ∈ a.exprs, E e)
    (h' : ∀ l ∈ a.labels, F l) : Gives (G.xm U a) (evXm U a) XmOperand.toRm := by
  cases a with
  | xmm r => exact Gives.bind (Gives.xmm H h) fun a => Gives.pure rfl
  | ind a =>
    exact Gives.map (Gives.ind H h h') fun a => rfl

theorem Gives.letImm (H : Knows U E F) {i : ε} (h : E i) : Gives (G.letImm U i) (ev U i) id := by
  intro st c
  have hi := Gives.eval H h st c
  rcases hx : ev U i st.world with ⟨_ | v, w⟩
  · rw [hx] at hi
    obtain ⟨st', e, j⟩ := hi
    exact ⟨st', G.bind_panic e, j⟩
  · rw [hx] at hi
    obtain ⟨st', e, j, w', c'⟩ := hi
    exact ⟨_, G.bind_ok e, j, w', c'.set (by decide) _⟩

/-! ### Statements -/

/-- What may remain after a panic in an expression: at least the case that nothing was emitted. -/
theorem Does.val_bind (h0 : ∀ s, S s s) {g : G ε lam ω β} {x : W ω α} {p : α → β} {f : β → G ε lam ω Unit}
    {I : γ → M Unit} {y : α → W ω γ} (h1 : Gives g x p) (h2 : ∀ a, Does S (f (p a)) I (y a)) :
    Does S (g >>= f) I (x >>= y) := by
  intro st c
  have h := h1 st c
  rcases hx : x st.world with ⟨_ | a, w⟩
  · rw [hx] at h
    obtain ⟨st1, e1, j1⟩ := h
    rw [W.bind_none hx]
    exact ⟨_, st1, G.bind_panic e1, j1 ▸ h0 _⟩
  · rw [hx] at h
    obtain ⟨st1, e1, j1, w1, c1⟩ := h
    have h := h2 a st1 c1
    rw [W.bind_some hx, G.bind_ok e1, ← w1, ← j1]
    exact h

theorem Does.letVar {x : String} {v : MVal} {g : G ε lam ω Unit} {I : γ → M Unit} {y : W ω γ}
    (hx : x ∈ reserved) (h : Does S g I y) : Does S (do G.letVar x v; g) I y :=
  fun st c => h { st with hidden := fun y => if y = x then some v else st.hidden y } (c.set hx v)

theorem Does.block {g : G ε lam ω Unit} {I : γ → M Unit} {y : W ω γ} (h : Does S g I y) :
    Does S (G.block g) I y := by
  intro st c
  have := h st c
  rcases hy : y st.world with ⟨_ | b, w⟩
  · rw [hy] at this
    obtain ⟨p, st', e, j⟩ := this
    refine ⟨p, { st' with hidden := st.hidden }, ?_, j⟩
    unfold G.block; rw [e]
  · rw [hy] at this
    show match I b st.jit with
      | .ok _ s => _
      | .panic p s => _
    have := this
    dsimp only at this
    revert this
    cases I b st.jit with
    | ok a s =>
      rintro ⟨st', e, j, w', c'⟩
      refine ⟨{ st' with hidden := st.hidden }, ?_, j, w', c⟩
      unfold G.block; rw [e]
    | panic p s =>
      rintro ⟨p', st', e', j, hp⟩
      refine ⟨p', { st' with hidden := st.hidden }, ?_, j, hp⟩
      unfold G.block; rw [e']

/-- A statement that only assembles. -/
theorem Does.jit {m : M Unit} {I : γ → M Unit} {b : γ} (h : ∀ s, I b s = m s) :
    Does S (G.jit m : G ε lam ω Unit) I (Pure.pure b) := by
  intro st c
  show match I b st.jit with
    | .ok _ s => _
    | .panic p s => _
  rw [h]
  unfold G.jit
  cases m st.jit with
  | ok a s => exact ⟨_, rfl, rfl, rfl, c⟩
  | panic p s => exact ⟨p, _, rfl, rfl, Or.inl rfl⟩

theorem Does.congr {g : G ε lam ω Unit} {I : γ → M Unit} {x y : W ω γ} (h : Does S g I x)
    (hx : ∀ w, y w = x w) : Does S g I y := fun st c => by
  rw [hx]; exact h st c

theorem W.bind_pure (x : W ω α) (w : ω) : x w = (x >>= Pure.pure) w := by
  rcases hx : x w with ⟨_ | a, w'⟩
  · exact (W.bind_none hx).symm
  · exact (W.bind_some (f := Pure.pure) hx).symm

/-- A call with one argument. -/
theorem Does.arg1 (h0 : ∀ s, S s s) {g : G ε lam ω β} {x : W ω α} {p : α → β} {f : β → M Unit}
    (h : Gives g x p) : Does S (G.arg1 f g) (fun a => f (p a)) x :=
  (Does.val_bind (S := S) h0 h fun a => Does.jit (I := fun a => f (p a)) fun _ => rfl).congr (W.bind_pure x)

/-- A call with one argument, followed by another call. -/
theorem Does.arg1_jit (h0 : ∀ s, S s s) {g : G ε lam ω β} {x : W ω α} {p : α → β} {f : β → M Unit}
    {m : M Unit} (h : Gives g x p) :
    Does S (do G.arg1 f g; G.jit m) (fun a => do f (p a); m) x := by
  intro st c
  have h := h st c
  rcases hx : x st.world with ⟨_ | a, w⟩
  · rw [hx] at h
    obtain ⟨st1, e1, j1⟩ := h
    exact ⟨_, st1, G.bind_panic (G.bind_panic e1), j1 ▸ h0 _⟩
  · rw [hx] at h
    obtain ⟨st1, e1, j1, w1, c1⟩ := h
    have e : (do G.arg1 f g; G.jit m : G ε lam ω Unit) st = G.jit (do f (p a); m : M Unit) st1 := by
      have ea : G.arg1 f g st = G.jit (f (p a)) st1 := G.bind_ok e1
      cases hf : f (p a) st1.jit with
      | ok u s =>
        have ej : G.arg1 f g st = .ok u { st1 with jit := s } := by rw [ea]; unfold G.jit; rw [hf]
        rw [G.bind_ok ej]
        unfold G.jit
        rw [M.bind_ok' hf]
      | panic q s =>
        have ej : G.arg1 f g st = .panic q { st1 with jit := s } := by rw [ea]; unfold G.jit; rw [hf]
        rw [G.bind_panic ej]
        unfold G.jit
        rw [M.bind_panic' hf]
    dsimp only
    rw [e, ← j1]
    unfold G.jit
    cases (do f (p a); m : M Unit) st1.jit with
    | ok u s => exact ⟨_, rfl, rfl, w1, c1⟩
    | panic q s => exact ⟨q, _, rfl, rfl, Or.inl rfl⟩

/-- The statement with the value. -/
theorem Does.map {g : G ε lam ω Unit} {I' : α → M Unit} {I : γ → M Unit} {y : W ω α} {k : α → γ}
    (h : Does S g I' y) (hk : ∀ a s, I (k a) s = I' a s) : Does S g I (y >>= fun a => Pure.pure (k a)) := by
  intro st c
  have hi := h st c
  rcases hx : y st.world with ⟨_ | a, w⟩
  · rw [hx] at hi; rw [W.bind_none hx]; exact hi
  · rw [hx] at hi; rw [W.bind_some hx]
    show match I (k a) st.jit with
      | .ok _ s => _
      | .panic p s => _
    rw [hk]
    exact hi

/-- A call with two arguments. -/
theorem Does.regRm (h0 : ∀ s, S s s) {f : Reg → Rm → M Unit} {g1 : G ε lam ω Reg} {g2 : G ε lam ω Rm}
    {x : W ω α} {y : W ω β} {p : α → Reg} {q : β → Rm} {I : γ → M Unit} {k : α → β → γ}
    (h1 : Gives g1 x p) (h2 : Gives g2 y q) (hk : ∀ a b s, I (k a b) s = f (p a) (q b) s) :
    Does S (G.regRm f g1 g2) I (do let a ← x; let b ← y; Pure.pure (k a b)) :=
  Does.val_bind h0 h1 fun a => Does.val_bind h0 h2 fun b => Does.jit (hk a b)

/-- A panic in generated code, possibly while the message is made. -/
theorem Does.panic {e : Panic} {y : W ω γ} (h0 : ∀ s, S s s) :
    Does S (G.panic e : G ε lam ω Unit) (fun _ => M.panic e) y := by
  intro st c
  rcases y st.world with ⟨_ | b, w⟩
  · exact ⟨e, st, rfl, h0 _⟩
  · exact ⟨e, st, rfl, rfl, Or.inl rfl⟩

theorem Does.message {e : Panic} {y : W ω γ} (h0 : ∀ s, S s s) {g : G ε lam ω β} {x : W ω α} {p : α → β}
    (h : Gives g x p) : Does S (do let _ ← g; G.panic e : G ε lam ω Unit) (fun _ => M.panic e) y := by
  intro st c
  have h := h st c
  rcases hx : x st.world with ⟨_ | a, w⟩
  · rw [hx] at h
    obtain ⟨st1, e1, j1⟩ := h
    rcases y st.world with ⟨_ | b, w'⟩
    · exact ⟨_, st1, G.bind_panic e1, j1 ▸ h0 _⟩
    · exact ⟨_, st1, G.bind_panic e1, j1, Or.inr rfl⟩
  · rw [hx] at h
    obtain ⟨st1, e1, j1, w1, c1⟩ := h
    rcases y st.world with ⟨_ | b, w'⟩
    · exact ⟨_, st1, G.bind_ok e1, j1 ▸ h0 _⟩
    · exact ⟨_, st1, G.bind_ok e1, j1, Or.inl rfl⟩

theorem emitb_panic {b : BitVec 8} {s s' : JitMemory} {p : Panic} (h : emitb b s = .panic p s') : s' = s := by
  have e : emitb b s = emitRes s.page [b] s := emitb_run _ _ _
  rw [e, emitRes] at h
  split at h
  · cases h
  · cases h
    rename_i hc
    have : PAGE_SIZE - (s.pages s.page).counter = 0 := by
      simp only [List.length_cons, List.length_nil] at hc; omega
    simp [spilled, this, putBytes]

/-- A byte is emitted, and then the operand is evaluated. -/
theorem Does.emit (h0 : ∀ s, S s s) (h1 : ∀ b s s', emitb b s = .ok () s' → S s s') {b : Monoasm.Byte}
    {g : G ε lam ω Unit} {I' : α → M Unit} {I : γ → M Unit} {y : W ω α} {k : α → γ}
    (h : Does (· = ·) g I' y) (hk : ∀ a s, I (k a) s = (do emitb b; I' a : M Unit) s) :
    Does S (do G.jit (emitb b); g) I (y >>= fun a => Pure.pure (k a)) := by
  intro st c
  rcases hb : emitb b st.jit with ⟨u, s⟩ | ⟨p, s⟩
  · have e : (do G.jit (emitb b); g : G ε lam ω Unit) st = g { st with jit := s } := by
      refine G.bind_ok (a := ()) ?_
      unfold G.jit; rw [hb]
    have hi := h { st with jit := s } c
    dsimp only at hi
    rcases hx : y st.world with ⟨_ | a, w⟩
    · rw [hx] at hi; rw [W.bind_none hx]
      obtain ⟨p, st', e', j⟩ := hi
      exact ⟨p, st', e.trans e', j ▸ h1 _ _ _ hb⟩
    · rw [hx] at hi; rw [W.bind_some hx]
      show match I (k a) st.jit with
        | .ok _ s => _
        | .panic p s => _
      rw [hk, M.bind_ok' hb, e]
      exact hi
  · have e : (do G.jit (emitb b); g : G ε lam ω Unit) st = .panic p { st with jit := s } := by
      refine G.bind_panic ?_
      unfold G.jit; rw [hb]
    have hs : s = st.jit := emitb_panic hb
    subst hs
    rcases hx : y st.world with ⟨_ | a, w⟩
    · rw [W.bind_none hx]
      exact ⟨p, _, e, h0 _⟩
    · rw [W.bind_some hx]
      show match I (k a) st.jit with
        | .ok _ s => _
        | .panic p s => _
      rw [hk, M.bind_panic' hb]
      exact ⟨p, _, e, rfl, Or.inl rfl⟩

/-- A byte is emitted, and then two operands are evaluated. -/
theorem Does.emit_regRm (h0 : ∀ s, S s s) (h1 : ∀ b s s', emitb b s = .ok () s' → S s s') {b : Monoasm.Byte}
    {f : Reg → Rm → M Unit} {g1 : G ε lam ω Reg} {g2 : G ε lam ω Rm}
    {x : W ω α} {y : W ω β} {p : α → Reg} {q : β → Rm} {I : γ → M Unit} {k : α → β → γ}
    (hx : Gives g1 x p) (hy : Gives g2 y q)
    (hk : ∀ a c s, I (k a c) s = (do emitb b; f (p a) (q c) : M Unit) s) :
    Does S (do G.jit (emitb b); G.regRm f g1 g2) I (do let a ← x; let b ← y; Pure.pure (k a b)) := by
  have h : Does (· = ·) (G.regRm f g1 g2) (fun ab : α × β => f (p ab.1) (q ab.2))
      (do let a ← x; let b ← y; Pure.pure (a, b)) := Does.regRm (fun _ => rfl) hx hy fun _ _ _ => rfl
  refine (Does.emit h0 h1 h (I := I) (k := fun ab => k ab.1 ab.2) fun ab s => hk _ _ _).congr ?_
  intro w
  rcases hx : x w with ⟨_ | a, w1⟩
  · rw [W.bind_none hx, W.bind_none (W.bind_none hx)]
  · rw [W.bind_some hx]
    rcases hy : y w1 with ⟨_ | c, w2⟩
    · rw [W.bind_none hy, W.bind_none ((W.bind_some hx).trans (W.bind_none hy))]
    · rw [W.bind_some hy, W.bind_some ((W.bind_some hx).trans (W.bind_some hy))]

theorem G.reg_named (n : BitVec 8) : (G.reg U (.reg n) : G ε lam ω Reg) = Pure.pure (Register.reg n : Register V).toReg := rfl

theorem G.rm_named (n : BitVec 8) :
    (G.rm U (.reg (.reg n)) : G ε lam ω Rm) = Pure.pure (Rm.reg (Register.reg n : Register V).toReg) := rfl

theorem G.pure_bind' {a : α} {f : α → G ε lam ω β} : ((Pure.pure a : G ε lam ω α) >>= f) = f a := rfl

theorem G.arg1_pure {a : α} {f : α → M Unit} : (G.arg1 f (Pure.pure a) : G ε lam ω Unit) = G.jit (f a) := rfl

theorem G.regRm_pure {a : Reg} {b : Rm} {f : Reg → Rm → M Unit} :
    (G.regRm f (Pure.pure a) (Pure.pure b) : G ε lam ω Unit) = G.jit (f a b) := rfl

theorem G.jit_seq {m n : M Unit} : (do G.jit m; G.jit n : G ε lam ω Unit) = G.jit (do m; n) := by
  funext st
  cases hm : m st.jit with
  | ok u s =>
    have e : (G.jit m : G ε lam ω Unit) st = .ok u { st with jit := s } := by unfold G.jit; rw [hm]
    rw [G.bind_ok e]
    unfold G.jit
    rw [M.bind_ok' hm]
  | panic p s =>
    have e : (G.jit m : G ε lam ω Unit) st = .panic p { st with jit := s } := by unfold G.jit; rw [hm]
    rw [G.bind_panic e]
    unfold G.jit
    rw [M.bind_panic' hm]

end Monoasm
