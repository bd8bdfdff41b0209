import Verif.Spec.Hygiene
import Verif.Model.Eval
import Verif.Proofs.Trace
/-
  Running the expansion: which expressions are evaluated, and in which scope.
-/

set_option linter.unusedSimpArgs false
set_option linter.unusedVariables false

namespace Monoasm
open Spec G JitMemory
variable {ε lam ω : Type}

/-- Only reserved names are hidden. -/
def Clean (h : Hidden) : Prop := ∀ x, x ∉ reserved → h x = none

theorem clean_userScope : Clean userScope := fun _ _ => rfl

theorem Clean.set {h : Hidden} (c : Clean h) {x : String} (hx : x ∈ reserved) (v : MVal) :
    Clean (fun y => if y = x then some v else h y) := by
  intro y hy
  have : y ≠ x := fun e => hy (e ▸ hx)
  simp [this, c y hy]

/-- Conditions on an evaluation. -/
def Good (E : ε → Prop) (F : lam → Prop) : Ev ε lam → Prop
  | .expr e h => E e ∧ Clean h
  | .label l h => F l ∧ Clean h

variable {E : ε → Prop} {F : lam → Prop}

/-- All evaluations of `g` satisfy `Good`, and if it does not panic, the list of evaluated
    expressions satisfies `K`. -/
def Tr (E : ε → Prop) (F : lam → Prop) {α} (g : G ε lam ω α) (K : List ε → Prop) : Prop :=
  ∀ st, Clean st.hidden →
    match g st with
    | .ok _ st' => Clean st'.hidden ∧ ∃ tr, st'.trace = st.trace ++ tr ∧ (∀ ev ∈ tr, Good E F ev) ∧
        K (evaluated tr)
    | .panic _ st' => ∃ tr, st'.trace = st.trace ++ tr ∧ ∀ ev ∈ tr, Good E F ev

theorem Tr.pure {α} {a : α} {K : List ε → Prop} (h : K []) :
    Tr E F (Pure.pure a : G ε lam ω α) K := by
  intro st c
  exact ⟨c, [], by simp, by simp, h⟩

theorem Tr.bind {α β} {g : G ε lam ω α} {f : α → G ε lam ω β} {L : List ε} {K : List ε → Prop}
    (hg : Tr E F g (· = L)) (hf : ∀ a, Tr E F (f a) (fun l => K (L ++ l))) :
    Tr E F (g >>= f) K := by
  intro st c
  have h1 := hg st c
  show match (match g st with
    | .ok a st' => f a st'
    | .panic e st' => .panic e st') with
    | .ok _ st' => _
    | .panic _ st' => _
  cases hgs : g st with
  | panic e st' => rw [hgs] at h1; exact h1
  | ok a st' =>
    rw [hgs] at h1
    obtain ⟨c', tr, ht, hgood, hL⟩ := h1
    have h2 := hf a st' c'
    show match f a st' with
      | .ok _ st' => _
      | .panic _ st' => _
    cases hfs : f a st' with
    | panic e st2 =>
      rw [hfs] at h2
      obtain ⟨tr2, ht2, hg2⟩ := h2
      refine ⟨tr ++ tr2, by rw [ht2, ht, List.append_assoc], ?_⟩
      intro ev hev
      rcases List.mem_append.1 hev with h | h
      · exact hgood ev h
      · exact hg2 ev h
    | ok b st2 =>
      rw [hfs] at h2
      obtain ⟨c2, tr2, ht2, hg2, hK⟩ := h2
      refine ⟨c2, tr ++ tr2, by rw [ht2, ht, List.append_assoc], ?_, ?_⟩
      · intro ev hev
        rcases List.mem_append.1 hev with h | h
        · exact hgood ev h
        · exact hg2 ev h
      · have : evaluated (tr ++ tr2) = L ++ evaluated tr2 := by
          rw [← hL]; simp [evaluated]
        rw [this]; exact hK

theorem Tr.weaken {α} {g : G ε lam ω α} {K K' : List ε → Prop} (h : Tr E F g K)
    (hk : ∀ l, K l → K' l) : Tr E F g K' := by
  intro st c
  have := h st c
  revert this
  cases g st with
  | panic e st' => exact id
  | ok a st' => rintro ⟨c', tr, h1, h2, h3⟩; exact ⟨c', tr, h1, h2, hk _ h3⟩

theorem Tr.of_eq {α} {g : G ε lam ω α} {L : List ε} {K : List ε → Prop} (h : Tr E F g (· = L))
    (hk : K L) : Tr E F g K := h.weaken (fun _ e => e ▸ hk)

theorem Tr.jit {α} {m : M α} {K : List ε → Prop} (h : K []) :
    Tr E F (G.jit m : G ε lam ω α) K := by
  intro st c
  unfold G.jit
  cases m st.jit with
  | ok a s => exact ⟨c, [], by simp, by simp, h⟩
  | panic e s => exact ⟨[], by simp, by simp⟩

theorem Tr.letVar {x : String} {v : MVal} {K : List ε → Prop} (hx : x ∈ reserved) (h : K []) :
    Tr E F (G.letVar x v : G ε lam ω Unit) K := by
  intro st c
  exact ⟨c.set hx v, [], by simp, by simp, h⟩

theorem Tr.block {α} {g : G ε lam ω α} {K : List ε → Prop} (h : Tr E F g K) :
    Tr E F (G.block g) K := by
  intro st c
  have := h st c
  unfold G.block
  revert this
  cases g st with
  | panic e st' => exact id
  | ok a st' => rintro ⟨_, tr, h1, h2, h3⟩; exact ⟨c, tr, h1, h2, h3⟩

theorem Tr.panic {α} {e : Panic} {K : List ε → Prop} : Tr E F (G.panic e : G ε lam ω α) K := by
  intro st c
  exact ⟨[], by simp, by simp⟩

theorem Tr.panic_bind {α β} {e : Panic} {f : α → G ε lam ω β} {K : List ε → Prop} :
    Tr E F (G.block (G.panic e) >>= f) K := by
  intro st c
  exact ⟨[], by simp, by simp⟩

variable {U : User ε lam ω}

theorem Tr.eval {e : ε} (h : E e) : Tr E F (G.eval U e) (· = [e]) := by
  intro st c
  unfold G.eval
  cases hv : U.value e st.hidden st.world with
  | mk o w =>
    cases o with
    | some v => exact ⟨c, [.expr e st.hidden], rfl, by simpa [Good] using ⟨h, c⟩, rfl⟩
    | none => exact ⟨[.expr e st.hidden], rfl, by simpa [Good] using ⟨h, c⟩⟩

theorem Tr.label {l : lam} (h : F l) : Tr E F (G.label U l) (· = []) := by
  intro st c
  exact ⟨c, [.label l st.hidden], rfl, by simpa [Good] using ⟨h, c⟩, rfl⟩

theorem Tr.reg {r : Register ε} (h : ∀ e ∈ r.exprs, E e) : Tr E F (G.reg U r) (· = r.exprs) := by
  cases r with
  | reg n => exact Tr.pure rfl
  | expr e => exact Tr.bind (Tr.eval (h e (by simp [Register.exprs]))) fun _ => Tr.pure rfl

theorem Tr.xmm {r : XmmReg ε} (h : ∀ e ∈ r.exprs, E e) : Tr E F (G.xmm U r) (· = r.exprs) := by
  cases r with
  | no n => exact Tr.pure rfl
  | expr e => exact Tr.bind (Tr.eval (h e (by simp [XmmReg.exprs]))) fun _ => Tr.pure rfl

theorem Tr.disp {d : MDisp ε lam} (h : ∀ e ∈ d.exprs, E e) (h' : ∀ l ∈ d.labels, F l) :
    Tr E F (G.disp U d) (· = d.exprs) := by
  cases d with
  | imm n => exact Tr.pure rfl
  | expr n e =>
    cases n with
    | false => exact Tr.bind (Tr.eval (h e (by simp [MDisp.exprs]))) fun _ => Tr.pure rfl
    | true => exact Tr.bind (Tr.eval (h e (by simp [MDisp.exprs]))) fun _ => Tr.pure rfl
  | label l => exact Tr.bind (Tr.label (h' l (by simp [MDisp.labels]))) fun _ => Tr.pure rfl

theorem Tr.scale {s : MScale ε} (h : ∀ e ∈ s.exprs, E e) : Tr E F (G.scale U s) (· = s.exprs) := by
  cases s with
  | none => exact Tr.pure rfl
  | s1 k r => exact Tr.bind (Tr.reg h) fun _ => Tr.pure (by simp [MScale.exprs])

/-- Order of evaluation inside a memory operand. -/
def IndAddr.order (a : IndAddr ε lam) : List ε := a.base.exprs ++ (a.disp.exprs ++ a.scale.exprs)

def RmOperand.order : RmOperand ε lam → List ε
  | .reg r => r.exprs
  | .ind a => a.order

def XmOperand.order : XmOperand ε lam → List ε
  | .xmm x => x.exprs
  | .ind a => a.order

theorem Tr.ind {a : IndAddr ε lam} (h : ∀ e ∈ a.exprs, E e) (h' : ∀ l ∈ a.labels, F l) :
    Tr E F (G.ind U a) (· = a.order) := by
  simp only [IndAddr.exprs, List.mem_append, or_imp, forall_and] at h
  refine Tr.bind (Tr.reg h.1.1) fun _ => Tr.bind (Tr.disp h.2 h') fun _ =>
    Tr.bind (Tr.scale h.1.2) fun _ => Tr.pure (by simp [IndAddr.order])

theorem Tr.rm {a : RmOperand ε lam} (h : ∀ e ∈ a.exprs, E e) (h' : ∀ l ∈ a.labels, F l) :
    Tr E F (G.rm U a) (· = a.order) := by
  cases a with
  | reg r => exact Tr.bind (Tr.reg h) fun _ => Tr.pure (by simp [RmOperand.order])
  | ind a => exact Tr.ind h h'

theorem Tr.xm {a : XmOperand ε lam} (h : ∀ e ∈ a.exprs, E e) (h' : ∀ l ∈ a.labels, F l) :
    Tr E F (G.xm U a) (· = a.order) := by
  cases a with
  | xmm r => exact Tr.bind (Tr.xmm h) fun _ => Tr.pure (by simp [XmOperand.order])
  | ind a => exact Tr.ind h h'

theorem Tr.regRm {f : Reg → Rm → M Unit} {r : G ε lam ω Reg} {a : G ε lam ω Rm} {L1 L2 : List ε}
    {K : List ε → Prop} (h1 : Tr E F r (· = L1)) (h2 : Tr E F a (· = L2)) (hk : K (L1 ++ L2)) :
    Tr E F (G.regRm f r a) K :=
  Tr.bind h1 fun _ => Tr.bind h2 fun _ => Tr.jit (by simpa using hk)

theorem Tr.arg1 {β} {f : β → M Unit} {a : G ε lam ω β} {L : List ε}
    {K : List ε → Prop} (h : Tr E F a (· = L)) (hk : K L) : Tr E F (G.arg1 f a) K :=
  Tr.bind h fun _ => Tr.jit (by simpa using hk)

theorem Tr.letImm {i : ε} (h : E i) : Tr E F (G.letImm U i) (· = [i]) :=
  Tr.bind (Tr.eval h) fun _ => Tr.bind (Tr.letVar (by decide) rfl) fun _ => Tr.pure rfl

theorem Tr.tryI8 {v : V} {thn : BitVec 8 → G ε lam ω Unit} {els : G ε lam ω Unit} {K : List ε → Prop}
    (h1 : ∀ i, Tr E F (thn i) K) (h2 : Tr E F els K) : Tr E F (G.tryI8 v thn els) K := by
  unfold G.tryI8
  split
  · exact Tr.block (Tr.bind (L := []) (Tr.letVar (by decide) rfl) fun _ => by simpa using h1 _)
  · exact Tr.block h2

theorem Tr.tryI16 {v : V} {thn : BitVec 16 → G ε lam ω Unit} {els : G ε lam ω Unit}
    {K : List ε → Prop}
    (h1 : ∀ i, Tr E F (thn i) K) (h2 : Tr E F els K) : Tr E F (G.tryI16 v thn els) K := by
  unfold G.tryI16
  split
  · exact Tr.block (Tr.bind (L := []) (Tr.letVar (by decide) rfl) fun _ => by simpa using h1 _)
  · exact Tr.block h2

theorem Tr.tryI32 {v : V} {thn : BitVec 32 → G ε lam ω Unit} {els : G ε lam ω Unit}
    {K : List ε → Prop}
    (h1 : ∀ i, Tr E F (thn i) K) (h2 : Tr E F els K) : Tr E F (G.tryI32 v thn els) K := by
  unfold G.tryI32
  split
  · exact Tr.block (Tr.bind (L := []) (Tr.letVar (by decide) rfl) fun _ => by simpa using h1 _)
  · exact Tr.block h2

theorem Tr.ite {α} {p : Prop} [Decidable p] {g g' : G ε lam ω α} {K : List ε → Prop}
    (h1 : Tr E F g K) (h2 : Tr E F g' K) : Tr E F (if p then g else g') K := by
  split
  · exact h1
  · exact h2

end Monoasm
