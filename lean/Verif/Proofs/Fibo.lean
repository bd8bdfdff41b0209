import Verif.Proofs.Leads
import Verif.Spec.Fibo
/-
  Helper lemmas for C53.
-/

namespace Monoasm
open Spec X86

variable {base : Nat} {mem : Nat → Monoasm.Byte}

theorem fibo_wf : WellFormed fibo.labels fibo.program := C52_check (by decide +kernel)

theorem fibo_runnable (hA : Alloc base) : Runnable base fibo.labels fibo.program := ⟨fibo_wf, hA⟩

/-- Bytes of the frame of a call are below the stack pointer. -/
theorem below_of_within {S x : BitVec 64} {k n : Nat} (hk : 8 ≤ k) (hk' : k ≤ 64)
    (h : Within (S - BitVec.ofNat 64 k) 8 x) : Below S (64 * (n + 1)) x := by
  simp only [Within, Below, BitVec.toNat_sub, BitVec.toNat_ofNat, BitVec.ofNat_eq_ofNat] at *
  omega

theorem below_callee {S x : BitVec 64} {m n : Nat} (hm : m < n)
    (h : Below (S - 64) (64 * (m + 1)) x) : Below S (64 * (n + 1)) x := by
  simp only [Below, BitVec.toNat_sub, BitVec.toNat_ofNat, BitVec.ofNat_eq_ofNat] at *
  omega

theorem above_callee {S x : BitVec 64} {k m n : Nat} (hm : m < n) (hn : 64 * (n + 1) + 8 ≤ 2 ^ 64) (hk : 8 ≤ k) (hk' : k ≤ 64)
    (h : Within (S - BitVec.ofNat 64 k) 8 x) : ¬ Below (S - 64) (64 * (m + 1)) x := by
  simp only [Within, Below, BitVec.toNat_sub, BitVec.toNat_ofNat, BitVec.ofNat_eq_ofNat] at *
  omega

theorem above_self {S x : BitVec 64} {n : Nat} (hn : 64 * (n + 1) + 8 ≤ 2 ^ 64)
    (h : Within S 8 x) : ¬ Below S (64 * (n + 1)) x := by
  simp only [Within, Below, BitVec.toNat_sub, BitVec.toNat_ofNat, BitVec.ofNat_eq_ofNat] at *
  omega

/-- State during a call that was entered in `d0` with the stack pointer `S`. -/
structure FiboFrame (d0 : Data) (S : BitVec 64) (n : Nat) (d : Data) : Prop where
  rsp : d.gpr 4 = S - 56
  rbp : d.gpr 5 = S - 8
  rbx : d.gpr 3 = d0.gpr 3
  s8 : d.load64 (S - 8) = d0.gpr 5
  s16 : d.load64 (S - 16) = d0.gpr 7
  s32 : d.load64 (S - 32) = d0.gpr 12
  s40 : d.load64 (S - 40) = d0.gpr 13
  s48 : d.load64 (S - 48) = d0.gpr 14
  s56 : d.load64 (S - 56) = d0.gpr 15
  mem : ∀ x, ¬ Below S (64 * (n + 1)) x → d.mem x = d0.mem x

/-- Only work registers changed. -/
theorem FiboFrame.same {d0 S n d d'} (h : FiboFrame d0 S n d) (hm : d'.mem = d.mem) (h3 : d'.gpr 3 = d.gpr 3) (h4 : d'.gpr 4 = d.gpr 4)
    (h5 : d'.gpr 5 = d.gpr 5) : FiboFrame d0 S n d' := by
  have hl : ∀ a, d'.load64 a = d.load64 a := fun a => by simp only [Data.load64, hm]
  constructor
  · rw [h4, h.rsp]
  · rw [h5, h.rbp]
  · rw [h3, h.rbx]
  · rw [hl, h.s8]
  · rw [hl, h.s16]
  · rw [hl, h.s32]
  · rw [hl, h.s40]
  · rw [hl, h.s48]
  · rw [hl, h.s56]
  · rw [hm]; exact h.mem

/-- Different slots of the frame. -/
theorem slot_apart {S : BitVec 64} {i k : Nat} (h : i + 8 ≤ k) (hk : k ≤ 64) :
    8 ≤ (S - BitVec.ofNat 64 i - (S - BitVec.ofNat 64 k)).toNat ∧ 8 ≤ (S - BitVec.ofNat 64 k - (S - BitVec.ofNat 64 i)).toNat := by
  rw [sub_sub_sub, sub_sub_sub]
  simp only [BitVec.toNat_sub, BitVec.toNat_ofNat]
  omega

/-- State after a push. -/
structure Pushed (S : BitVec 64) (n k : Nat) (v : BitVec 64) (d d' : Data) : Prop where
  rsp : d'.gpr 4 = S - BitVec.ofNat 64 (k + 8)
  gpr : ∀ r, r ≠ 4 → d'.gpr r = d.gpr r
  top : d'.load64 (S - BitVec.ofNat 64 (k + 8)) = v
  old : ∀ i, i ≤ k → d'.load64 (S - BitVec.ofNat 64 i) = d.load64 (S - BitVec.ofNat 64 i)
  mem : ∀ x, ¬ Below S (64 * (n + 1)) x → d'.mem x = d.mem x

theorem pushed {S : BitVec 64} {n k : Nat} (v) {d : Data} (hs : d.gpr 4 = S - BitVec.ofNat 64 k) (hk : k ≤ 56) :
    Pushed S n k v d (d.push v) := by
  have e : S - BitVec.ofNat 64 k - 8 = S - BitVec.ofNat 64 (k + 8) := by
    rw [BitVec.ofNat_add, ← BitVec.sub_sub]; rfl
  have e' : d.push v = (d.setGpr 4 (S - BitVec.ofNat 64 (k + 8))).store64 (S - BitVec.ofNat 64 (k + 8)) v := by
    rw [← e, ← hs]; rfl
  rw [e']
  refine ⟨rfl, fun r hr => ?_, load64_same _ _ _, fun i hi => ?_, fun x hx => ?_⟩
  · exact if_neg hr
  · obtain ⟨h1, h2⟩ := slot_apart (S := S) (i := i) (k := k + 8) (by omega) (by omega)
    rw [load64_other _ _ _ _ h1 h2]; rfl
  · rw [mem_store64 _ _ _ _ fun hw => hx (below_of_within (by omega) (by omega) hw)]; rfl

/-- State after a pop. -/
structure Popped (S : BitVec 64) (k : Nat) (a : Gpr) (d d' : Data) : Prop where
  rsp : d'.gpr 4 = S - BitVec.ofNat 64 k
  val : d'.gpr a = d.load64 (S - BitVec.ofNat 64 (k + 8))
  gpr : ∀ r, r ≠ 4 → r ≠ a → d'.gpr r = d.gpr r
  mem : d'.mem = d.mem

theorem popped {S : BitVec 64} {k : Nat} {a : Gpr} {d : Data} (hs : d.gpr 4 = S - BitVec.ofNat 64 (k + 8)) (ha : a ≠ 4) :
    Popped S k a d (d.drop.setGpr a (d.load64 (d.gpr X86.rsp))) := by
  have e : S - BitVec.ofNat 64 (k + 8) + 8 = S - BitVec.ofNat 64 k := by
    rw [BitVec.ofNat_add, show BitVec.ofNat 64 8 = 8#64 from rfl]; grind
  refine ⟨?_, ?_, fun r h1 h2 => ?_, rfl⟩
  · rw [gpr_setGpr, if_neg (Ne.symm ha), ← e, ← hs]; rfl
  · rw [gpr_setGpr, if_pos rfl, show d.gpr X86.rsp = d.gpr 4 from rfl, hs]
  · rw [gpr_setGpr, if_neg h2]; exact if_neg h1

section
variable (hA : Alloc base) {d0 d : Data} {S : BitVec 64} {n : Nat} {Q : State → Prop}
  (hL : Loaded base mem (simple fibo.labels fibo.program) d0) (hO : Outside base (Below S (64 * (n + 1))))
include hA hL hO

theorem fibo_prologue (hS : d0.gpr 4 = S)
    (h : ∀ d, FiboFrame d0 S n d → Leads Described Q ⟨codeAt base mem fibo.labels fibo.program 9, d⟩) :
    Leads Described Q ⟨codeAt base mem fibo.labels fibo.program 0, d0⟩ := by
  have hR := fibo_runnable hA
  rw [← codeAt_label hR (m := 0) (l := 0) rfl]
  -- pushq rbp
  refine lead_det (j := 1) (I := .push (.gpr 5)) hR hL rfl rfl rfl (eff_push _ _ _) ?_
  have p1 := pushed (S := S) (n := n) (k := 0) (d0.gpr 5) (d := d0) (by rw [hS]; simp) (by decide)
  generalize d0.push (d0.gpr 5) = d1 at p1
  have k1 := p1.mem
  -- movq rbp, rsp
  refine lead_det (j := 2) (I := .mov .q (.gpr 5) (.gpr 4)) hR (loaded_frame hL hO k1) rfl rfl rfl (eff_mov_rr _ _ _ _) ?_
  -- subq rsp, 16
  refine lead_det (j := 3) (I := .alu .sub .q (.gpr 4) (.imm 16)) hR (loaded_frame hL hO k1) rfl rfl rfl (eff_sub_ri _ _ _ _) ?_
  obtain ⟨d3, ed3⟩ : ∃ d3, d3 = ((d1.setGpr 5 (d1.gpr 4)).setGpr 4 ((d1.setGpr 5 (d1.gpr 4)).gpr 4 - 16)).setFlags
    (subb ((d1.setGpr 5 (d1.gpr 4)).gpr 4) 16 false).2 := ⟨_, rfl⟩
  rw [← ed3]
  have g4 : d3.gpr 4 = S - BitVec.ofNat 64 24 := by
    rw [ed3]
    show d1.gpr 4 - 16 = _
    rw [p1.rsp, BitVec.sub_sub]; rfl
  have g5 : d3.gpr 5 = S - 8 := by rw [ed3]; exact p1.rsp
  have g : ∀ r, r ≠ 4 → r ≠ 5 → d3.gpr r = d0.gpr r := fun r h1 h2 => by
    rw [ed3, gpr_setFlags, gpr_setGpr, if_neg h1, gpr_setGpr, if_neg h2, p1.gpr r h1]
  have l8 : d3.load64 (S - BitVec.ofNat 64 8) = d0.gpr 5 := by rw [ed3]; exact p1.top
  have k3 : ∀ x, ¬ Below S (64 * (n + 1)) x → d3.mem x = d0.mem x := by rw [ed3]; exact k1
  clear ed3
  -- pushq r12; pushq r13; pushq r14; pushq r15
  refine lead_det (j := 4) (I := .push (.gpr 12)) hR (loaded_frame hL hO k3) rfl rfl rfl (eff_push _ _ _) ?_
  have p4 := pushed (n := n) (d3.gpr 12) g4 (by decide)
  generalize d3.push (d3.gpr 12) = d4 at p4
  have k4 := fun x hx => (p4.mem x hx).trans (k3 x hx)
  refine lead_det (j := 5) (I := .push (.gpr 13)) hR (loaded_frame hL hO k4) rfl rfl rfl (eff_push _ _ _) ?_
  have p5 := pushed (n := n) (d4.gpr 13) p4.rsp (by decide)
  generalize d4.push (d4.gpr 13) = d5 at p5
  have k5 := fun x hx => (p5.mem x hx).trans (k4 x hx)
  refine lead_det (j := 6) (I := .push (.gpr 14)) hR (loaded_frame hL hO k5) rfl rfl rfl (eff_push _ _ _) ?_
  have p6 := pushed (n := n) (d5.gpr 14) p5.rsp (by decide)
  generalize d5.push (d5.gpr 14) = d6 at p6
  have k6 := fun x hx => (p6.mem x hx).trans (k5 x hx)
  refine lead_det (j := 7) (I := .push (.gpr 15)) hR (loaded_frame hL hO k6) rfl rfl rfl (eff_push _ _ _) ?_
  have p7 := pushed (n := n) (d6.gpr 15) p6.rsp (by decide)
  generalize d6.push (d6.gpr 15) = d7 at p7
  have k7 := fun x hx => (p7.mem x hx).trans (k6 x hx)
  have f : ∀ r, r ≠ 4 → d7.gpr r = d3.gpr r := fun r h => by rw [p7.gpr r h, p6.gpr r h, p5.gpr r h, p4.gpr r h]
  -- movq [rbp - 8], rdi
  refine lead_det (j := 8) (I := .mov .q (.mem ⟨.gpr 5, none, -8⟩) (.gpr 7)) hR (loaded_frame hL hO k7) rfl rfl rfl (eff_mov_mr _ _ _ _) ?_
  have ea : Addr.ea ⟨.gpr 5, none, -8⟩ (codeAt base mem fibo.labels fibo.program 9) d7 = S - BitVec.ofNat 64 16 := by
    show d7.gpr 5 + 0 + -8 = _
    rw [f 5 (by decide), g5]
    grind
  change Leads Described Q ⟨codeAt base mem fibo.labels fibo.program 9,
    d7.store64 (Addr.ea ⟨.gpr 5, none, -8⟩ (codeAt base mem fibo.labels fibo.program 9) d7) (d7.gpr 7)⟩
  rw [ea]
  have keep : ∀ i, i ≠ 16 → 8 ≤ i → i ≤ 56 → 8 ∣ i →
      (d7.store64 (S - BitVec.ofNat 64 16) (d7.gpr 7)).load64 (S - BitVec.ofNat 64 i) = d7.load64 (S - BitVec.ofNat 64 i) := by
    intro i h1 h2 h3 h4
    have : i + 8 ≤ 16 ∨ 16 + 8 ≤ i := by omega
    rcases this with h | h
    · obtain ⟨h1, h2⟩ := slot_apart (S := S) h (by decide)
      exact load64_other _ _ _ _ h1 h2
    · obtain ⟨h1, h2⟩ := slot_apart (S := S) h (by omega)
      exact load64_other _ _ _ _ h2 h1
  refine h _ ⟨p7.rsp, ?_, ?_, ?_, ?_, ?_, ?_, ?_, ?_, fun x hx => ?_⟩
  · rw [gpr_store64, f 5 (by decide), g5]
  · rw [gpr_store64, f 3 (by decide), g 3 (by decide) (by decide)]
  · rw [show S - 8 = S - BitVec.ofNat 64 8 from rfl, keep 8 (by decide) (by decide) (by decide) (by decide), p7.old 8 (by decide),
      p6.old 8 (by decide), p5.old 8 (by decide), p4.old 8 (by decide), l8]
  · rw [show S - 16 = S - BitVec.ofNat 64 16 from rfl, load64_same, f 7 (by decide), g 7 (by decide) (by decide)]
  · rw [show S - 32 = S - BitVec.ofNat 64 32 from rfl, keep 32 (by decide) (by decide) (by decide) (by decide), p7.old 32 (by decide),
      p6.old 32 (by decide), p5.old 32 (by decide), p4.top, g 12 (by decide) (by decide)]
  · rw [show S - 40 = S - BitVec.ofNat 64 40 from rfl, keep 40 (by decide) (by decide) (by decide) (by decide), p7.old 40 (by decide),
      p6.old 40 (by decide), p5.top, p4.gpr 13 (by decide), g 13 (by decide) (by decide)]
  · rw [show S - 48 = S - BitVec.ofNat 64 48 from rfl, keep 48 (by decide) (by decide) (by decide) (by decide), p7.old 48 (by decide),
      p6.top, p5.gpr 14 (by decide), p4.gpr 14 (by decide), g 14 (by decide) (by decide)]
  · rw [show S - 56 = S - BitVec.ofNat 64 56 from rfl, keep 56 (by decide) (by decide) (by decide) (by decide), p7.top,
      p6.gpr 15 (by decide), p5.gpr 15 (by decide), p4.gpr 15 (by decide), g 15 (by decide) (by decide)]
  · rw [mem_store64 _ _ _ _ fun hw => hx (below_of_within (by decide) (by decide) hw), k7 x hx]

theorem fibo_work {I d1 j i} (hF : FiboFrame d0 S n d) (hj : fibo.program[j]? = some i)
    (hI : instrAt base mem (simple fibo.labels fibo.program) encoded (fibo.labels.length + j) i = some I) (hc : I.isControl = false)
    (he : effect (I.absolute (codeAt base mem fibo.labels fibo.program (j + 1))) (codeAt base mem fibo.labels fibo.program (j + 1)) d = some (d1, {}))
    (hm : d1.mem = d.mem) (h3 : d1.gpr 3 = d.gpr 3) (h4 : d1.gpr 4 = d.gpr 4) (h5 : d1.gpr 5 = d.gpr 5)
    (h : FiboFrame d0 S n d1 → Leads Described Q ⟨codeAt base mem fibo.labels fibo.program (j + 1), d1⟩) :
    Leads Described Q ⟨codeAt base mem fibo.labels fibo.program j, d⟩ :=
  lead_det (fibo_runnable hA) (loaded_frame hL hO hF.mem) hj hI hc he (h (hF.same hm h3 h4 h5))

theorem fibo_local {r : Gpr} {j i} (hF : FiboFrame d0 S n d) (hj : fibo.program[j]? = some i)
    (hI : instrAt base mem (simple fibo.labels fibo.program) encoded (fibo.labels.length + j) i = some (.mov .q (.gpr r) (.mem ⟨.gpr 5, none, -8⟩)))
    (h3 : r ≠ 3) (h4 : r ≠ 4) (h5 : r ≠ 5)
    (h : FiboFrame d0 S n (d.setGpr r (d0.gpr 7)) → Leads Described Q ⟨codeAt base mem fibo.labels fibo.program (j + 1), d.setGpr r (d0.gpr 7)⟩) :
    Leads Described Q ⟨codeAt base mem fibo.labels fibo.program j, d⟩ := by
  refine fibo_work hA hL hO hF hj hI rfl (d1 := d.setGpr r (d0.gpr 7)) ?_ rfl (if_neg (Ne.symm h3)) (if_neg (Ne.symm h4)) (if_neg (Ne.symm h5)) h
  have ea : Addr.ea ⟨.gpr 5, none, -8⟩ (codeAt base mem fibo.labels fibo.program (j + 1)) d = S - 16 := by
    show d.gpr 5 + 0 + -8 = _
    rw [hF.rbp]
    grind
  have := eff_mov_rm (codeAt base mem fibo.labels fibo.program (j + 1)) d r ⟨.gpr 5, none, -8⟩
  rw [ea, hF.s16] at this
  exact this

theorem fibo_epilogue (hS : d0.gpr 4 = S) (hn : 64 * (n + 1) + 8 ≤ 2 ^ 64) (hF : FiboFrame d0 S n d) :
    Leads Described (fun st => Returned (Below S (64 * (n + 1))) d0 st ∧ st.data.gpr 0 = d.gpr 0)
      ⟨codeAt base mem fibo.labels fibo.program 36, d⟩ := by
  have hR := fibo_runnable hA
  rw [← codeAt_label hR (m := 36) (l := 3) rfl]
  -- popq r15; popq r14; popq r13; popq r12
  refine lead_det (j := 37) (I := .pop (.gpr 15)) hR (loaded_frame hL hO hF.mem) rfl rfl rfl (eff_pop _ _ _) ?_
  have p1 := popped (k := 48) (a := 15) (d := d) hF.rsp (by decide)
  generalize d.drop.setGpr 15 (d.load64 (d.gpr X86.rsp)) = d1 at p1
  have m1 := p1.mem
  have k1 : ∀ x, ¬ Below S (64 * (n + 1)) x → d1.mem x = d0.mem x := by rw [m1]; exact hF.mem
  refine lead_det (j := 38) (I := .pop (.gpr 14)) hR (loaded_frame hL hO k1) rfl rfl rfl (eff_pop _ _ _) ?_
  have p2 := popped (k := 40) (a := 14) (d := d1) p1.rsp (by decide)
  generalize d1.drop.setGpr 14 (d1.load64 (d1.gpr X86.rsp)) = d2 at p2
  have m2 := p2.mem.trans m1
  have k2 : ∀ x, ¬ Below S (64 * (n + 1)) x → d2.mem x = d0.mem x := by rw [m2]; exact hF.mem
  refine lead_det (j := 39) (I := .pop (.gpr 13)) hR (loaded_frame hL hO k2) rfl rfl rfl (eff_pop _ _ _) ?_
  have p3 := popped (k := 32) (a := 13) (d := d2) p2.rsp (by decide)
  generalize d2.drop.setGpr 13 (d2.load64 (d2.gpr X86.rsp)) = d3 at p3
  have m3 := p3.mem.trans m2
  have k3 : ∀ x, ¬ Below S (64 * (n + 1)) x → d3.mem x = d0.mem x := by rw [m3]; exact hF.mem
  refine lead_det (j := 40) (I := .pop (.gpr 12)) hR (loaded_frame hL hO k3) rfl rfl rfl (eff_pop _ _ _) ?_
  have p4 := popped (k := 24) (a := 12) (d := d3) p3.rsp (by decide)
  generalize d3.drop.setGpr 12 (d3.load64 (d3.gpr X86.rsp)) = d4 at p4
  have m4 := p4.mem.trans m3
  have k4 : ∀ x, ¬ Below S (64 * (n + 1)) x → d4.mem x = d0.mem x := by rw [m4]; exact hF.mem
  -- movq rsp, rbp
  refine lead_det (j := 41) (I := .mov .q (.gpr 4) (.gpr 5)) hR (loaded_frame hL hO k4) rfl rfl rfl (eff_mov_rr _ _ _ _) ?_
  have g5 : d4.gpr 5 = S - BitVec.ofNat 64 8 := by
    rw [p4.gpr 5 (by decide) (by decide), p3.gpr 5 (by decide) (by decide), p2.gpr 5 (by decide) (by decide),
      p1.gpr 5 (by decide) (by decide), hF.rbp]; rfl
  -- popq rbp
  refine lead_det (j := 42) (I := .pop (.gpr 5)) hR (loaded_frame hL hO k4) rfl rfl rfl (eff_pop _ _ _) ?_
  have p5 := popped (k := 0) (a := 5) (d := d4.setGpr 4 (d4.gpr 5)) g5 (by decide)
  generalize (d4.setGpr 4 (d4.gpr 5)).drop.setGpr 5 ((d4.setGpr 4 (d4.gpr 5)).load64 ((d4.setGpr 4 (d4.gpr 5)).gpr X86.rsp)) = d5 at p5
  have m5 : d5.mem = d.mem := p5.mem.trans m4
  have k5 : ∀ x, ¬ Below S (64 * (n + 1)) x → d5.mem x = d0.mem x := by rw [m5]; exact hF.mem
  have hl : ∀ {d' : Data} a, d'.mem = d.mem → d'.load64 a = d.load64 a := fun a h => by simp only [Data.load64, h]
  have e5 : d5.gpr 4 = S := by rw [p5.rsp]; simp
  -- ret
  refine lead_ret (j := 43) hR (loaded_frame hL hO k5) rfl (.done ⟨⟨?_, ?_, ?_, fun x hx => k5 x hx⟩, ?_⟩)
  · show d5.load64 (d5.gpr 4) = d0.load64 (d0.gpr 4)
    rw [e5, hS]
    exact load64_congr _ _ fun x hx => k5 x (above_self hn hx)
  · show d5.gpr 4 + 8 = d0.gpr 4 + 8
    rw [e5, hS]
  · intro r hr
    simp only [calleeSaved, List.mem_cons, List.not_mem_nil, or_false] at hr
    rcases hr with rfl | rfl | rfl | rfl | rfl | rfl
    · show d5.gpr 3 = _
      rw [p5.gpr 3 (by decide) (by decide), show (d4.setGpr 4 (d4.gpr 5)).gpr 3 = d4.gpr 3 from rfl,
        p4.gpr 3 (by decide) (by decide), p3.gpr 3 (by decide) (by decide), p2.gpr 3 (by decide) (by decide),
        p1.gpr 3 (by decide) (by decide), hF.rbx]
    · show d5.gpr 5 = _
      rw [p5.val, load64_setGpr, hl _ m4]
      exact hF.s8
    · show d5.gpr 12 = _
      rw [p5.gpr 12 (by decide) (by decide), show (d4.setGpr 4 (d4.gpr 5)).gpr 12 = d4.gpr 12 from rfl, p4.val, hl _ m3]
      exact hF.s32
    · show d5.gpr 13 = _
      rw [p5.gpr 13 (by decide) (by decide), show (d4.setGpr 4 (d4.gpr 5)).gpr 13 = d4.gpr 13 from rfl,
        p4.gpr 13 (by decide) (by decide), p3.val, hl _ m2]
      exact hF.s40
    · show d5.gpr 14 = _
      rw [p5.gpr 14 (by decide) (by decide), show (d4.setGpr 4 (d4.gpr 5)).gpr 14 = d4.gpr 14 from rfl,
        p4.gpr 14 (by decide) (by decide), p3.gpr 14 (by decide) (by decide), p2.val, hl _ m1]
      exact hF.s48
    · show d5.gpr 15 = _
      rw [p5.gpr 15 (by decide) (by decide), show (d4.setGpr 4 (d4.gpr 5)).gpr 15 = d4.gpr 15 from rfl,
        p4.gpr 15 (by decide) (by decide), p3.gpr 15 (by decide) (by decide), p2.gpr 15 (by decide) (by decide), p1.val]
      exact hF.s56
  · show d5.gpr 0 = _
    rw [p5.gpr 0 (by decide) (by decide), show (d4.setGpr 4 (d4.gpr 5)).gpr 0 = d4.gpr 0 from rfl,
      p4.gpr 0 (by decide) (by decide), p3.gpr 0 (by decide) (by decide), p2.gpr 0 (by decide) (by decide),
      p1.gpr 0 (by decide) (by decide)]

end

/-- What is to be shown of a call. -/
def FiboCall (base : Nat) (mem : Nat → Monoasm.Byte) (n : Nat) : Prop :=
  ∀ (d0 : Data) (S : BitVec 64), Loaded base mem (simple fibo.labels fibo.program) d0 → Outside base (Below S (64 * (n + 1))) →
    64 * (n + 1) + 8 ≤ 2 ^ 64 → d0.gpr 4 = S → d0.gpr 7 = BitVec.ofNat 64 n →
    Leads Described (fun st => Returned (Below S (64 * (n + 1))) d0 st ∧ st.data.gpr 0 = BitVec.ofNat 64 (fib n))
      ⟨codeAt base mem fibo.labels fibo.program 0, d0⟩

section
variable (hA : Alloc base) {d0 d : Data} {S : BitVec 64} {n : Nat} {Q : State → Prop}
  (hL : Loaded base mem (simple fibo.labels fibo.program) d0) (hO : Outside base (Below S (64 * (n + 1))))
include hA hL hO

theorem fibo_recurse {m j} (hn : 64 * (n + 1) + 8 ≤ 2 ^ 64) (hm : m < n) (ih : FiboCall base mem m) (hF : FiboFrame d0 S n d)
    (hj : fibo.program[j]? = some (.Call (.rel 0))) (h7 : d.gpr 7 = BitVec.ofNat 64 m)
    (h : ∀ d', FiboFrame d0 S n d' → d'.gpr 0 = BitVec.ofNat 64 (fib m) → d'.gpr 12 = d.gpr 12 →
      Leads Described Q ⟨codeAt base mem fibo.labels fibo.program (j + 1), d'⟩) :
    Leads Described Q ⟨codeAt base mem fibo.labels fibo.program j, d⟩ := by
  have hR := fibo_runnable hA
  refine lead_call (m := 0) hR (loaded_frame hL hO hF.mem) hj rfl ?_
  have p := pushed (n := n) (k := 56) (codeAt base mem fibo.labels fibo.program (j + 1)) (d := d) hF.rsp (by decide)
  generalize d.push (codeAt base mem fibo.labels fibo.program (j + 1)) = d1 at p
  have k1 : ∀ x, ¬ Below S (64 * (n + 1)) x → d1.mem x = d0.mem x := fun x hx => (p.mem x hx).trans (hF.mem x hx)
  refine (ih d1 (S - 64) (loaded_frame hL hO k1) (fun a h1 h2 hb => hO a h1 h2 (below_callee hm hb)) (by omega) p.rsp
    (by rw [p.gpr 7 (by decide), h7])).bind fun st ⟨hret, hv⟩ => ?_
  have hl : ∀ k, 8 ≤ k → k ≤ 64 → st.data.load64 (S - BitVec.ofNat 64 k) = d1.load64 (S - BitVec.ofNat 64 k) := fun k h1 h2 =>
    load64_congr _ _ fun x hx => hret.mem x (above_callee hm hn h1 h2 hx)
  have hs : ∀ r, r ∈ calleeSaved → r ≠ 4 → st.data.gpr r = d.gpr r := fun r h1 h2 => by rw [hret.saved r h1, p.gpr r h2]
  have hr : st.rip = codeAt base mem fibo.labels fibo.program (j + 1) := by
    rw [hret.rip, show d1.gpr X86.rsp = d1.gpr 4 from rfl, p.rsp, p.top]
  have := h st.data ?_ hv (hs 12 (by decide) (by decide))
  · rw [← hr] at this; exact this
  · refine ⟨?_, ?_, ?_, ?_, ?_, ?_, ?_, ?_, ?_, fun x hx => ?_⟩
    · rw [show st.data.gpr 4 = st.data.gpr X86.rsp from rfl, hret.rsp, show d1.gpr X86.rsp = d1.gpr 4 from rfl, p.rsp]
      show S - 64#64 + 8#64 = S - 56#64
      grind
    · rw [hs 5 (by decide) (by decide), hF.rbp]
    · rw [hs 3 (by decide) (by decide), hF.rbx]
    · exact ((hl 8 (by decide) (by decide)).trans (p.old 8 (by decide))).trans hF.s8
    · exact ((hl 16 (by decide) (by decide)).trans (p.old 16 (by decide))).trans hF.s16
    · exact ((hl 32 (by decide) (by decide)).trans (p.old 32 (by decide))).trans hF.s32
    · exact ((hl 40 (by decide) (by decide)).trans (p.old 40 (by decide))).trans hF.s40
    · exact ((hl 48 (by decide) (by decide)).trans (p.old 48 (by decide))).trans hF.s48
    · exact ((hl 56 (by decide) (by decide)).trans (p.old 56 (by decide))).trans hF.s56
    · rw [hret.mem x fun hb => hx (below_callee hm hb), k1 x hx]

end

theorem fibo_call (hA : Alloc base) (n : Nat) : FiboCall base mem n := by
  induction n using Nat.strongRecOn with
  | ind n ih =>
    intro d0 S hL hO hn hS h7
    have hR := fibo_runnable hA
    refine fibo_prologue hA hL hO hS fun d9 hF => ?_
    -- movq r12, [rbp - 8]; movq r13, 0; cmpq r12, r13
    refine fibo_local hA hL hO (j := 9) (r := 12) hF rfl rfl (by decide) (by decide) (by decide) fun hF => ?_
    refine fibo_work hA hL hO (j := 10) (I := .mov .q (.gpr 13) (.imm 0)) hF rfl rfl rfl (eff_mov_ri _ _ _ _) rfl rfl rfl rfl fun hF => ?_
    refine fibo_work hA hL hO (j := 11) (I := .alu .cmp .q (.gpr 12) (.gpr 13)) hF rfl rfl rfl (eff_cmp_rr _ _ _ _) rfl rfl rfl rfl fun hF => ?_
    refine lead_jcc (j := 12) (m := 15) hR (loaded_frame hL hO hF.mem) rfl rfl (fun hc => ?_) (fun hc => ?_)
    · have n0 : n ≠ 0 := by
        rintro rfl
        rw [ne_holds, flags_setFlags, zf_subb] at hc
        simp [gpr_setGpr] at hc
        exact hc h7
      rw [← codeAt_label hR (m := 15) (l := 1) rfl]
      refine fibo_work hA hL hO (j := 16) (I := .mov .q (.gpr 13) (.imm 1)) hF rfl rfl rfl (eff_mov_ri _ _ _ _) rfl rfl rfl rfl fun hF => ?_
      refine fibo_work hA hL hO (j := 17) (I := .alu .cmp .q (.gpr 12) (.gpr 13)) hF rfl rfl rfl (eff_cmp_rr _ _ _ _) rfl rfl rfl rfl fun hF => ?_
      refine lead_jcc (j := 18) (m := 21) hR (loaded_frame hL hO hF.mem) rfl rfl (fun hc => ?_) (fun hc => ?_)
      · have n1 : n ≠ 1 := by
          rintro rfl
          rw [ne_holds, flags_setFlags, zf_subb] at hc
          simp [gpr_setGpr, gpr_setFlags] at hc
          exact hc h7
        obtain ⟨m, rfl⟩ : ∃ m, n = m + 2 := ⟨n - 2, by omega⟩
        rw [← codeAt_label hR (m := 21) (l := 2) rfl]
        refine fibo_local hA hL hO (j := 22) (r := 12) hF rfl rfl (by decide) (by decide) (by decide) fun hF => ?_
        refine fibo_work hA hL hO (j := 23) (I := .mov .q (.gpr 13) (.imm 1)) hF rfl rfl rfl (eff_mov_ri _ _ _ _) rfl rfl rfl rfl fun hF => ?_
        refine fibo_work hA hL hO (j := 24) (I := .alu .sub .q (.gpr 12) (.gpr 13)) hF rfl rfl rfl (eff_sub_rr _ _ _ _) rfl rfl rfl rfl fun hF => ?_
        refine fibo_work hA hL hO (j := 25) (I := .mov .q (.gpr 7) (.gpr 12)) hF rfl rfl rfl (eff_mov_rr _ _ _ _) rfl rfl rfl rfl fun hF => ?_
        refine fibo_recurse hA hL hO (m := m + 1) (j := 26) hn (by omega) (ih _ (by omega)) hF rfl ?_ ?_
        · show d0.gpr 7 - 1#64 = _
          rw [h7]
          apply BitVec.eq_of_toNat_eq
          simp only [BitVec.toNat_sub, BitVec.toNat_ofNat]
          omega
        clear hF
        intro d hF h0 _
        refine fibo_work hA hL hO (j := 27) (I := .mov .q (.gpr 12) (.gpr 0)) hF rfl rfl rfl (eff_mov_rr _ _ _ _) rfl rfl rfl rfl fun hF => ?_
        refine fibo_local hA hL hO (j := 28) (r := 13) hF rfl rfl (by decide) (by decide) (by decide) fun hF => ?_
        refine fibo_work hA hL hO (j := 29) (I := .mov .q (.gpr 14) (.imm 2)) hF rfl rfl rfl (eff_mov_ri _ _ _ _) rfl rfl rfl rfl fun hF => ?_
        refine fibo_work hA hL hO (j := 30) (I := .alu .sub .q (.gpr 13) (.gpr 14)) hF rfl rfl rfl (eff_sub_rr _ _ _ _) rfl rfl rfl rfl fun hF => ?_
        refine fibo_work hA hL hO (j := 31) (I := .mov .q (.gpr 7) (.gpr 13)) hF rfl rfl rfl (eff_mov_rr _ _ _ _) rfl rfl rfl rfl fun hF => ?_
        refine fibo_recurse hA hL hO (m := m) (j := 32) hn (by omega) (ih _ (by omega)) hF rfl ?_ ?_
        · show d0.gpr 7 - 2#64 = _
          rw [h7]
          apply BitVec.eq_of_toNat_eq
          simp only [BitVec.toNat_sub, BitVec.toNat_ofNat]
          omega
        clear hF
        intro d' hF h0' h12
        replace h12 : d'.gpr 12 = d.gpr 0 := h12
        refine fibo_work hA hL hO (j := 33) (I := .mov .q (.gpr 13) (.gpr 0)) hF rfl rfl rfl (eff_mov_rr _ _ _ _) rfl rfl rfl rfl fun hF => ?_
        refine fibo_work hA hL hO (j := 34) (I := .alu .add .q (.gpr 12) (.gpr 13)) hF rfl rfl rfl (eff_add_rr _ _ _ _) rfl rfl rfl rfl fun hF => ?_
        refine fibo_work hA hL hO (j := 35) (I := .mov .q (.gpr 0) (.gpr 12)) hF rfl rfl rfl (eff_mov_rr _ _ _ _) rfl rfl rfl rfl fun hF => ?_
        refine (fibo_epilogue hA hL hO hS hn hF).mono fun st ⟨h1, h2⟩ => ⟨h1, h2.trans ?_⟩
        show d'.gpr 12 + d'.gpr 0 = _
        rw [h12, h0, h0', fib, BitVec.ofNat_add, BitVec.add_comm]
      · have n1 : n = 1 := by
          rw [ne_holds, flags_setFlags, zf_subb] at hc
          simp [gpr_setGpr, gpr_setFlags] at hc
          replace hc := h7.symm.trans hc
          have := congrArg BitVec.toNat hc
          simp only [BitVec.toNat_ofNat] at this
          omega
        subst n1
        refine fibo_work hA hL hO (j := 19) (I := .mov .q (.gpr 0) (.imm 1)) hF rfl rfl rfl (eff_mov_ri _ _ _ _) rfl rfl rfl rfl fun hF => ?_
        refine lead_jmp (j := 20) (m := 36) hR (loaded_frame hL hO hF.mem) rfl rfl ?_
        exact (fibo_epilogue hA hL hO hS hn hF).mono fun st ⟨h1, h2⟩ => ⟨h1, h2⟩
    · have n0 : n = 0 := by
        rw [ne_holds, flags_setFlags, zf_subb] at hc
        simp [gpr_setGpr] at hc
        replace hc := h7.symm.trans hc
        have := congrArg BitVec.toNat hc
        simp only [BitVec.toNat_ofNat] at this
        omega
      subst n0
      refine fibo_work hA hL hO (j := 13) (I := .mov .q (.gpr 0) (.imm 0)) hF rfl rfl rfl (eff_mov_ri _ _ _ _) rfl rfl rfl rfl fun hF => ?_
      refine lead_jmp (j := 14) (m := 36) hR (loaded_frame hL hO hF.mem) rfl rfl ?_
      exact (fibo_epilogue hA hL hO hS hn hF).mono fun st ⟨h1, h2⟩ => ⟨h1, h2⟩

end Monoasm
