import Verif.Props.C52
import Verif.Spec.Leads
/-
  Symbolic execution of simple programs.
-/

namespace X86
open X86

variable {E : Effect} {Q R : State → Prop}

theorem Leads.bind {s} (h : Leads E Q s) (k : ∀ s', Q s' → Leads E R s') : Leads E R s := by
  induction h with
  | done h => exact k _ h
  | step h1 _ ih => exact .step h1 ih

theorem Leads.mono {s} (h : Leads E Q s) (k : ∀ s', Q s' → R s') : Leads E R s := h.bind fun s' h => .done (k s' h)

end X86

namespace Monoasm
open Spec X86 JitMemory

variable {base : Nat} {mem : Nat → Monoasm.Byte} {pre : List NewCall} {is : List (Inst Val Nat)}

theorem loaded_intact {H : List Op} {d : Data} (h : Loaded base mem H d) (n) : Intact base mem H n d := by
  intro a h1 h2
  have hi := inv_reach base mem (H.take n)
  have hi' := inv_reach base mem (H.take (n + 1))
  have hp := hi'.page
  have hc := hi'.counter (reach base mem (H.take (n + 1))).page
  simp only [Spec.place, here, hi.contents, hi'.contents] at h1 h2
  refine h a (by omega) (Nat.lt_of_lt_of_le h2 ?_)
  have : (reach base mem (H.take (n + 1))).page ≤ 1 := Nat.le_of_lt_succ hp
  have := Nat.mul_le_mul_left PAGE_SIZE this
  omega

theorem loaded_frame {H : List Op} {W} {d d' : Data} (h : Loaded base mem H d) (ho : Outside base W)
    (hm : ∀ x, ¬ W x → d'.mem x = d.mem x) : Loaded base mem H d' :=
  fun a h1 h2 => by rw [hm _ (ho a h1 h2)]; exact h a h1 h2

theorem loaded_same {H : List Op} {d d' : Data} (h : Loaded base mem H d) (hm : d'.mem = d.mem) : Loaded base mem H d' :=
  fun a h1 h2 => by rw [hm]; exact h a h1 h2

/-- Memory can contain the program. -/
theorem loaded_example (hA : Alloc base) (H : List Op) (g x f) : Loaded base mem H ⟨g, x, f, fun a => (reach base mem H).mem a.toNat⟩ := by
  intro a h1 h2
  have := hA.user
  show (reach base mem H).mem _ = _
  rw [BitVec.toNat_ofNat, Nat.mod_eq_of_lt (by omega)]

/-- A program with what is needed to run it. -/
structure Runnable (base : Nat) (pre : List NewCall) (is : List (Inst Val Nat)) : Prop where
  wf : WellFormed pre is
  alloc : Alloc base

section
variable (hR : Runnable base pre is) {E : Effect} {Q : State → Prop} {d : Data} {j m : Nat} {l : Nat}
  (hd : Loaded base mem (simple pre is) d)
include hR hd

theorem lead_exec {i I} (hj : is[j]? = some i)
    (hI : instrAt base mem (simple pre is) encoded (pre.length + j) i = some I)
    (h1 : ∃ r d', Exec E (codeAt base mem pre is (j + 1)) I d r d')
    (h2 : ∀ r d', Exec E (codeAt base mem pre is (j + 1)) I d r d' → Leads E Q ⟨r, d'⟩) :
    Leads E Q ⟨codeAt base mem pre is j, d⟩ := by
  have hs : ∀ r d', X86.Step E ⟨codeAt base mem pre is j, d⟩ ⟨r, d'⟩ ↔ _ := fun r d' =>
    C52_step_encoded (E := E) (r := r) (d' := d') hR.wf hR.alloc hj hI (loaded_intact hd _)
  obtain ⟨r, d', h⟩ := h1
  refine .step ⟨⟨r, d'⟩, (hs r d').2 h⟩ ?_
  rintro ⟨r, d'⟩ h
  exact h2 r d' ((hs r d').1 h)

theorem lead_seq {i I d1 u} (hj : is[j]? = some i)
    (hI : instrAt base mem (simple pre is) encoded (pre.length + j) i = some I) (hc : I.isControl = false)
    (he : effect (I.absolute (codeAt base mem pre is (j + 1))) (codeAt base mem pre is (j + 1)) d = some (d1, u))
    (h : ∀ f, d1.flags.agree u f → Leads Described Q ⟨codeAt base mem pre is (j + 1), d1.setFlags f⟩) :
    Leads Described Q ⟨codeAt base mem pre is j, d⟩ := by
  refine lead_exec hR hd hj hI ⟨_, d1, .other hc ⟨d1, u, he, ⟨fun _ => rfl, fun _ => rfl, fun _ => rfl, fun _ => rfl, fun _ => rfl⟩, rfl⟩⟩ ?_
  intro r d' hx
  cases hx with
  | other _ h' =>
    obtain ⟨d2, u2, h3, h4, h5⟩ := h'
    rw [he] at h3
    cases h3
    rw [h5]
    exact h _ h4
  | jmpRel | jcc | callRel | jmpInd | callInd | ret => cases hc

/-- Instructions without undefined flags. -/
theorem lead_det {i I d1} (hj : is[j]? = some i)
    (hI : instrAt base mem (simple pre is) encoded (pre.length + j) i = some I) (hc : I.isControl = false)
    (he : effect (I.absolute (codeAt base mem pre is (j + 1))) (codeAt base mem pre is (j + 1)) d = some (d1, {}))
    (h : Leads Described Q ⟨codeAt base mem pre is (j + 1), d1⟩) :
    Leads Described Q ⟨codeAt base mem pre is j, d⟩ := by
  refine lead_seq hR hd hj hI hc he fun f hf => ?_
  have : f = d1.flags := by
    obtain ⟨h1, h2, h3, h4, h5⟩ := hf
    cases f; cases e : d1.flags
    simp [e] at h1 h2 h3 h4 h5
    simp [*]
  rw [this]
  exact h

omit hd in
theorem labelAddr_at (hm : is[m]? = some (.Label l)) :
    labelAddr (reach base mem (simple pre is)) l = Spec.place base mem (simple pre is) (pre.length + m) :=
  labelAddr_eq (C52_label hR.wf hR.alloc hm).1

omit hd in
theorem codeAt_label (hm : is[m]? = some (.Label l)) : codeAt base mem pre is (m + 1) = codeAt base mem pre is m := by
  rw [codeAt, codeAt, placeW, placeW, ← Nat.add_assoc, (C52_label hR.wf hR.alloc hm).2]

omit hd in
theorem jump_at (hm : is[m]? = some (.Label l)) :
    codeAt base mem pre is (j + 1) + dist (labelAddr (reach base mem (simple pre is))) (Spec.place base mem (simple pre is) (pre.length + j + 1)) l
      = codeAt base mem pre is m := by
  have := dist_add (labelAddr (reach base mem (simple pre is))) (Spec.place base mem (simple pre is) (pre.length + j + 1)) l
  rw [labelAddr_at hR hm] at this
  exact this

theorem lead_jmp (hj : is[j]? = some (.Jmp (.rel l))) (hm : is[m]? = some (.Label l))
    (h : Leads E Q ⟨codeAt base mem pre is m, d⟩) : Leads E Q ⟨codeAt base mem pre is j, d⟩ := by
  refine lead_exec hR hd hj rfl ⟨_, _, .jmpRel⟩ fun r d' hx => ?_
  cases hx with
  | jmpRel => rw [jump_at hR hm]; exact h
  | other hc => cases hc

theorem lead_jcc {c} (hj : is[j]? = some (.Jcc c l)) (hm : is[m]? = some (.Label l))
    (h1 : (cc c).holds d.flags = true → Leads E Q ⟨codeAt base mem pre is m, d⟩)
    (h2 : (cc c).holds d.flags = false → Leads E Q ⟨codeAt base mem pre is (j + 1), d⟩) : Leads E Q ⟨codeAt base mem pre is j, d⟩ := by
  refine lead_exec hR hd hj rfl ⟨_, _, .jcc⟩ fun r d' hx => ?_
  cases hx with
  | jcc =>
    rw [jump_at hR hm]
    cases hc : (cc c).holds d.flags
    · exact h2 hc
    · exact h1 hc
  | other hc => cases hc

theorem lead_call (hj : is[j]? = some (.Call (.rel l))) (hm : is[m]? = some (.Label l))
    (h : Leads E Q ⟨codeAt base mem pre is m, d.push (codeAt base mem pre is (j + 1))⟩) : Leads E Q ⟨codeAt base mem pre is j, d⟩ := by
  refine lead_exec hR hd hj rfl ⟨_, _, .callRel⟩ fun r d' hx => ?_
  cases hx with
  | callRel => rw [jump_at hR hm]; exact h
  | other hc => cases hc

theorem lead_ret (hj : is[j]? = some .Ret)
    (h : Leads E Q ⟨d.load64 (d.gpr X86.rsp), d.drop⟩) : Leads E Q ⟨codeAt base mem pre is j, d⟩ := by
  refine lead_exec hR hd hj rfl ⟨_, _, .ret⟩ fun r d' hx => ?_
  cases hx with
  | ret => exact h
  | other hc => cases hc

end

/-! ### Registers and memory -/

theorem bytes_join (v : BitVec 64) : v.extractLsb' 56 8 ++ v.extractLsb' 48 8 ++ v.extractLsb' 40 8 ++ v.extractLsb' 32 8
    ++ v.extractLsb' 24 8 ++ v.extractLsb' 16 8 ++ v.extractLsb' 8 8 ++ v.extractLsb' 0 8 = v := by
  apply BitVec.eq_of_getLsbD_eq
  intro i hi
  simp only [BitVec.getLsbD_append, BitVec.getLsbD_extractLsb']
  by_cases h1 : i < 8
  · simp [h1]
  by_cases h2 : i < 16
  · simp [h1, show i - 8 < 8 by omega, show 8 + (i - 8) = i by omega]
  by_cases h3 : i < 24
  · simp [h1, show ¬ i - 8 < 8 by omega, show i - 8 - 8 < 8 by omega, show 16 + (i - 8 - 8) = i by omega]
  by_cases h4 : i < 32
  · simp [h1, show ¬ i - 8 < 8 by omega, show ¬ i - 8 - 8 < 8 by omega, show i - 8 - 8 - 8 < 8 by omega, show 24 + (i - 8 - 8 - 8) = i by omega]
  by_cases h5 : i < 40
  · simp [h1, show ¬ i - 8 < 8 by omega, show ¬ i - 8 - 8 < 8 by omega, show ¬ i - 8 - 8 - 8 < 8 by omega,
      show i - 8 - 8 - 8 - 8 < 8 by omega, show 32 + (i - 8 - 8 - 8 - 8) = i by omega]
  by_cases h6 : i < 48
  · simp [h1, show ¬ i - 8 < 8 by omega, show ¬ i - 8 - 8 < 8 by omega, show ¬ i - 8 - 8 - 8 < 8 by omega,
      show ¬ i - 8 - 8 - 8 - 8 < 8 by omega, show i - 8 - 8 - 8 - 8 - 8 < 8 by omega, show 40 + (i - 8 - 8 - 8 - 8 - 8) = i by omega]
  by_cases h7 : i < 56
  · simp [h1, show ¬ i - 8 < 8 by omega, show ¬ i - 8 - 8 < 8 by omega, show ¬ i - 8 - 8 - 8 < 8 by omega,
      show ¬ i - 8 - 8 - 8 - 8 < 8 by omega, show ¬ i - 8 - 8 - 8 - 8 - 8 < 8 by omega, show i - 8 - 8 - 8 - 8 - 8 - 8 < 8 by omega,
      show 48 + (i - 8 - 8 - 8 - 8 - 8 - 8) = i by omega]
  · simp [h1, show ¬ i - 8 < 8 by omega, show ¬ i - 8 - 8 < 8 by omega, show ¬ i - 8 - 8 - 8 < 8 by omega,
      show ¬ i - 8 - 8 - 8 - 8 < 8 by omega, show ¬ i - 8 - 8 - 8 - 8 - 8 < 8 by omega, show ¬ i - 8 - 8 - 8 - 8 - 8 - 8 < 8 by omega,
      show i - 8 - 8 - 8 - 8 - 8 - 8 - 8 < 8 by omega, show 56 + (i - 8 - 8 - 8 - 8 - 8 - 8 - 8) = i by omega]

section
variable (d : Data) (r q : Gpr) (v a b : BitVec 64)

theorem gpr_setGpr : (d.setGpr r v).gpr q = if q = r then v else d.gpr q := rfl
theorem mem_setGpr : (d.setGpr r v).mem = d.mem := rfl
theorem xmm_setGpr : (d.setGpr r v).xmm = d.xmm := rfl
theorem flags_setGpr : (d.setGpr r v).flags = d.flags := rfl
theorem load64_setGpr : (d.setGpr r v).load64 a = d.load64 a := rfl
theorem gpr_setFlags (f) : (d.setFlags f).gpr = d.gpr := rfl
theorem mem_setFlags (f) : (d.setFlags f).mem = d.mem := rfl
theorem xmm_setFlags (f) : (d.setFlags f).xmm = d.xmm := rfl
theorem flags_setFlags (f) : (d.setFlags f).flags = f := rfl
theorem load64_setFlags (f) : (d.setFlags f).load64 a = d.load64 a := rfl
theorem gpr_store64 : (d.store64 a v).gpr = d.gpr := rfl
theorem xmm_store64 : (d.store64 a v).xmm = d.xmm := rfl
theorem flags_store64 : (d.store64 a v).flags = d.flags := rfl

theorem mem_store64 (x) (h : ¬ Within a 8 x) : (d.store64 a v).mem x = d.mem x := if_neg h

theorem store_eq : d.store 8 a v = d.store64 a v := rfl

theorem load64_congr {d' : Data} (h : ∀ x, Within a 8 x → d'.mem x = d.mem x) : d'.load64 a = d.load64 a := by
  have k : ∀ i : BitVec 64, i.toNat < 8 → d'.mem (a + i) = d.mem (a + i) := fun i hi => h _ (by
    rw [Within, show a + i - a = i by rw [BitVec.add_comm, BitVec.add_sub_cancel]]; exact hi)
  have k0 := k 0 (by decide)
  simp only [BitVec.ofNat_eq_ofNat, BitVec.add_zero] at k0
  simp only [Data.load64, k 1 (by decide), k 2 (by decide), k 3 (by decide), k 4 (by decide), k 5 (by decide), k 6 (by decide),
    k 7 (by decide), k0]

theorem within_apart {a b x : BitVec 64} {k : Nat} (h1 : k ≤ (a - b).toNat) (h2 : 8 ≤ (b - a).toNat) (h : Within a 8 x) : ¬ Within b k x := by
  simp only [Within] at h ⊢
  rw [BitVec.toNat_sub] at *
  omega

theorem load64_other (h1 : 8 ≤ (a - b).toNat) (h2 : 8 ≤ (b - a).toNat) : (d.store64 b v).load64 a = d.load64 a :=
  load64_congr d a fun x hx => mem_store64 d v b x (within_apart h1 h2 hx)

theorem load64_same : (d.store64 a v).load64 a = v := by
  have k : ∀ i : BitVec 64, i.toNat < 8 → (d.store64 a v).mem (a + i) = v.extractLsb' (8 * i.toNat) 8 := fun i hi => by
    simp only [Data.store64]
    rw [show a + i - a = i by rw [BitVec.add_comm, BitVec.add_sub_cancel], if_pos hi]
  have k0 := k 0 (by decide)
  simp only [BitVec.ofNat_eq_ofNat, BitVec.add_zero] at k0
  simp only [Data.load64, k 1 (by decide), k 2 (by decide), k 3 (by decide), k 4 (by decide), k 5 (by decide), k 6 (by decide),
    k 7 (by decide), k0]
  exact bytes_join v

theorem sub_sub_sub (S a b : BitVec 64) : S - a - (S - b) = b - a := by grind

end

/-! ### Effect of instructions on 64-bit operands -/

section
variable (next : BitVec 64) (d : Data) (a b : Gpr) (m : Addr) (v : BitVec 64)

theorem eff_mov_rr : effect (.mov .q (.gpr a) (.gpr b)) next d = some (d.setGpr a (d.gpr b), {}) := by
  simp [effect, Opd.write, Opd.read, Opd.value, Data.setReg, Size.bits]

theorem eff_mov_ri : effect (.mov .q (.gpr a) (.imm v)) next d = some (d.setGpr a v, {}) := by
  simp [effect, Opd.write, Opd.read, Opd.value, Data.setReg, Size.bits]

theorem eff_mov_rm : effect (.mov .q (.gpr a) (.mem m)) next d = some (d.setGpr a (d.load64 (m.ea next d)), {}) := by
  simp [effect, Opd.write, Opd.read, Opd.value, Data.setReg, Size.bits]

theorem eff_mov_mr : effect (.mov .q (.mem m) (.gpr b)) next d = some (d.store64 (m.ea next d) (d.gpr b), {}) := by
  simp [effect, Opd.write, Opd.read, Opd.value, Size.bits, Size.bytes, store_eq]

theorem eff_push : effect (.push (.gpr a)) next d = some (d.push (d.gpr a), {}) := rfl

theorem eff_pop : effect (.pop (.gpr a)) next d = some (d.drop.setGpr a (d.load64 (d.gpr X86.rsp)), {}) := rfl

theorem subb_fst {n} (a b : BitVec n) : (subb a b false).1 = a - b := by simp [subb]
theorem addc_fst {n} (a b : BitVec n) : (addc a b false).1 = a + b := by simp [addc]
theorem read_gpr : (Opd.gpr a).read .q next d = d.gpr a := BitVec.setWidth_eq _
theorem read_imm : (Opd.imm v).read .q next d = v := BitVec.setWidth_eq _

theorem eff_sub_rr : effect (.alu .sub .q (.gpr a) (.gpr b)) next d
    = some ((d.setGpr a (d.gpr a - d.gpr b)).setFlags (subb (d.gpr a) (d.gpr b) false).2, {}) := by
  rw [← subb_fst, effect, read_gpr, read_gpr]; rfl

theorem eff_sub_ri : effect (.alu .sub .q (.gpr a) (.imm v)) next d
    = some ((d.setGpr a (d.gpr a - v)).setFlags (subb (d.gpr a) v false).2, {}) := by
  rw [← subb_fst, effect, read_gpr, read_imm]; rfl

theorem eff_add_rr : effect (.alu .add .q (.gpr a) (.gpr b)) next d
    = some ((d.setGpr a (d.gpr a + d.gpr b)).setFlags (addc (d.gpr a) (d.gpr b) false).2, {}) := by
  rw [← addc_fst, effect, read_gpr, read_gpr]; rfl

theorem eff_cmp_rr : effect (.alu .cmp .q (.gpr a) (.gpr b)) next d
    = some (d.setFlags (subb (d.gpr a) (d.gpr b) false).2, {}) := by
  rw [effect, read_gpr, read_gpr]; rfl

theorem ne_holds (f : Flags) : (cc .Ne).holds f = !f.zf := by simp [cc, CC.holds]

theorem zf_subb (a b : BitVec 64) : (subb a b false).2.zf = decide (a = b) := by
  simp only [subb, flagsOf, Bool.toNat_false, BitVec.sub_zero]
  by_cases h : a = b
  · simp [h]
  · have : ¬ a - b = 0 := fun e => h (by rw [← BitVec.sub_add_cancel a b, e]; simp)
    simp [h]
    simpa using this

end

end Monoasm
