import Verif.Spec.Protect
import Verif.Proofs.Exec
import Verif.Proofs.Retarget
import Verif.Props.C49
/-
  Helper lemmas for C58.
-/

namespace Monoasm
open Spec X86

variable {M : Reading} {base : Nat} {mem : Nat → Monoasm.Byte} {P : Nat → Protection} {H : List Op} {n n' j : Nat} {i : Inst Val Nat} {E : Effect}

theorem prot_code {p a : Nat} (hp : p < 2) (ha : inPage base p a) : JitMemory.newProtection base P a = .READ_WRITE_EXECUTE := by
  simp only [inPage, JitMemory.newProtection, protect] at *
  have : p = 0 ∨ p = 1 := by omega
  rw [PAGE_SIZE_eq] at *
  rw [if_neg (by omega), if_pos (by omega)]

theorem prot_data {a : Nat} (ha : inPage base 2 a) : JitMemory.newProtection base P a = .READ_WRITE := by
  simp only [inPage, JitMemory.newProtection, protect] at *
  rw [PAGE_SIZE_eq] at *
  rw [if_pos (by omega)]

theorem prot_other {a : Nat} (ha : ∀ p : Nat, p < 3 → ¬ inPage base p a) : JitMemory.newProtection base P a = P a := by
  have h0 := ha 0 (by decide)
  have h1 := ha 1 (by decide)
  have h2 := ha 2 (by decide)
  simp only [inPage, JitMemory.newProtection, protect] at *
  rw [PAGE_SIZE_eq] at *
  rw [if_neg (by omega), if_neg (by omega)]

/-- The code of a statement is on the page that was selected. -/
theorem place_page (hr : NoRaw H) (hn : H[n]? = some (.inst i))
    (h : ∃ s1, Runs i (reach base mem (H.take n)) s1) {a} (h1 : place base mem H n ≤ a) (h2 : a < place base mem H (n + 1)) :
    inPage base (reach base mem (H.take n)).page a := by
  obtain ⟨s1, h⟩ := h
  obtain ⟨its, -, hran⟩ := runs_items h
  have e1 := runs_reach hn h
  have i0 := hinv_take (base := base) (mem := mem) hr n
  have i1 := hinv_take (base := base) (mem := mem) hr (n + 1)
  rw [e1] at i1
  rw [place] at h1
  rw [place, e1] at h2
  simp only [here, i0.inv.contents, i1.inv.contents, hran.page] at h1 h2
  have := i1.inv.counter (reach base mem (H.take n)).page
  simp only [inPage]
  omega

/-- Any step of the processor at the code of a statement can be made. -/
theorem nx_of_step {s' : State} {d : Data} (hA : Alloc base) (hr : NoRaw H) (hf : KeepsLabels (JitMemory.new base mem) H)
    (hn : H[n]? = some (.inst i)) (hR : Ready base mem H M n i) (hv : ∃ I, instrAt base mem H M n i = some I)
    (hd : Intact base mem H n d) (h : X86.Step E ⟨placeW base mem H n, d⟩ s') :
    NxStep (executable (JitMemory.newProtection base P)) E ⟨placeW base mem H n, d⟩ s' := by
  obtain ⟨I, hI⟩ := hv
  obtain ⟨s1, h1⟩ := hR.runs
  obtain ⟨tail, h2, h3, h4⟩ := fetch_at hn h1 hd
  have h5 := decode_at hA hr hf hn hR hI tail
  have hlt : place base mem H n < place base mem H (n + 1) := by
    refine Nat.lt_of_le_of_ne h2 fun e => ?_
    have h0 := decode_at hA hr hf hn hR hI []
    rw [← e, Nat.sub_self] at h0
    exact absurd h0 (by simp [bytes, X86.decode, X86.prefixes])
  rw [← h4] at h5
  have hu := hA.user
  have hx : ∀ j, j < place base mem H (n + 1) - place base mem H n →
      executable (JitMemory.newProtection base P) (placeW base mem H n + BitVec.ofNat 64 j) := by
    intro j hj
    have hp := place_page hr hn hR.runs (a := place base mem H n + j) (by omega) (by omega)
    have hpg := (hinv_take (base := base) (mem := mem) hr n).inv.page
    have hb : place base mem H n + j < 2 ^ 64 := by
      have hp := hp.2
      have : ∀ p : Nat, p < 2 → base + PAGE_SIZE * p + PAGE_SIZE ≤ base + 3 * PAGE_SIZE := by
        intro p hp
        rw [PAGE_SIZE_eq]; omega
      have := this _ hpg
      omega
    rw [executable, placeW, ← BitVec.ofNat_add, BitVec.toNat_ofNat, Nat.mod_eq_of_lt hb, prot_code hpg hp]
    rfl
  cases h with
  | mk h7 h8 =>
    rw [h5] at h7
    cases h7
    refine .mk h5 ?_ ?_ h8
    · have := hx 0 (by omega)
      rwa [show placeW base mem H n + BitVec.ofNat 64 0 = placeW base mem H n from BitVec.add_zero _] at this
    · rw [h3]; exact hx

theorem nxSteps_append {X : BitVec 64 → Prop} {a b : Nat} {s s' s'' : State} (h1 : NxSteps X E a s s') (h2 : NxSteps X E b s' s'') :
    NxSteps X E (a + b) s s'' := by
  induction h1 with
  | zero => rwa [Nat.zero_add]
  | succ h _ ih => rw [Nat.add_right_comm]; exact .succ h (ih h2)

end Monoasm
