import Verif.Proofs.Leads
import Verif.Spec.Tests
/-
  Helper lemmas for C54.
-/

namespace Monoasm
open Spec X86

theorem computes_of {pre vars names text is entry W before after} (h1 : assemble vars names text = some is) (hw : WellFormed pre is)
    (j : Nat) (hj : is[j]? = some (.Label entry))
    (h : ∀ base mem, Runnable base pre is → ∀ d, Loaded base mem (simple pre is) d → (∀ x, Within (d.gpr rsp) 8 x → ¬ W base x) →
      before d → Leads Described (fun s => Returned (W base) d s ∧ after d s.data) ⟨codeAt base mem pre is j, d⟩) :
    Computes pre vars names text entry W before after := by
  refine ⟨is, h1, fun base mem hA => ⟨C52 hw base mem, _, (C52_label hw hA hj).1.2, fun d hL hS hb => ?_⟩⟩
  exact h base mem ⟨hw, hA⟩ d hL hS hb

theorem divideError_of {pre vars names text is entry before} (h1 : assemble vars names text = some is) (hw : WellFormed pre is)
    (j : Nat) (hj : is[j]? = some (.Label entry))
    (h : ∀ base mem, Runnable base pre is → ∀ d, Loaded base mem (simple pre is) d → before d →
      Leads Described (fun s => ∃ sz a rest, decode (fetch s.data.mem s.rip) = some (.un .div sz (.gpr a), rest)
        ∧ 2 ^ sz.bits * ((s.data.gpr a).setWidth sz.bits).toNat ≤ (s.data.wide sz.bits).toNat) ⟨codeAt base mem pre is j, d⟩) :
    DivideError pre vars names text entry before := by
  refine ⟨is, h1, fun base mem hA => ⟨C52 hw base mem, _, (C52_label hw hA hj).1.2, fun d hL hb => ?_⟩⟩
  exact h base mem ⟨hw, hA⟩ d hL hb

theorem decode_code {base mem pre is} {d : Data} {j i I} (hR : Runnable base pre is) (hd : Loaded base mem (simple pre is) d)
    (hj : is[j]? = some i) (hI : instrAt base mem (simple pre is) encoded (pre.length + j) i = some I) :
    ∃ rest, decode (fetch d.mem (codeAt base mem pre is j)) = some (I, rest) := by
  obtain ⟨s, hs⟩ := simple_runs hR.wf base mem
  have hn := simple_label_at (pre := pre) hj
  have hr := simple_ready hR.wf hR.alloc mem hn
  obtain ⟨s1, h1⟩ := hr.runs
  obtain ⟨tail, h2, h3, h4⟩ := fetch_at hn h1 (loaded_intact hd _)
  have h5 := decode_at hR.alloc (noRaw_simple pre is) (keepsLabels_runOps hs) hn hr hI tail
  rw [← h4] at h5
  exact ⟨_, h5⟩

theorem labelled {base mem pre is} {E : Effect} {Q : State → Prop} {d} {j l : Nat} (hR : Runnable base pre is)
    (hj : is[j]? = some (.Label l)) (h : Leads E Q ⟨codeAt base mem pre is (j + 1), d⟩) : Leads E Q ⟨codeAt base mem pre is j, d⟩ := by
  rwa [codeAt_label hR hj] at h

/-- Registers that a function must restore. -/
structure Kept (d0 d : Data) : Prop where
  rbx : d.gpr 3 = d0.gpr 3
  rsp : d.gpr 4 = d0.gpr 4
  rbp : d.gpr 5 = d0.gpr 5
  r12 : d.gpr 12 = d0.gpr 12
  r13 : d.gpr 13 = d0.gpr 13
  r14 : d.gpr 14 = d0.gpr 14
  r15 : d.gpr 15 = d0.gpr 15

theorem leaf_ret {base mem pre is j} {W : BitVec 64 → Prop} {d0 d : Data} {Q : State → Prop} (hR : Runnable base pre is)
    (hd : Loaded base mem (simple pre is) d) (hj : is[j]? = some .Ret) (hk : Kept d0 d)
    (hW : ∀ x, Within (d0.gpr rsp) 8 x → ¬ W x) (hm : ∀ x, ¬ W x → d.mem x = d0.mem x)
    (hQ : ∀ s, Returned W d0 s → s.data = d.drop → Q s) : Leads Described Q ⟨codeAt base mem pre is j, d⟩ := by
  have e4 : d.gpr rsp = d0.gpr rsp := hk.rsp
  refine lead_ret hR hd hj (.done (hQ _ ⟨?_, ?_, ?_, hm⟩ rfl))
  · show d.load64 (d.gpr rsp) = d0.load64 (d0.gpr rsp)
    rw [e4]
    exact load64_congr _ _ fun x hx => hm x (hW x hx)
  · show d.gpr rsp + 8 = d0.gpr rsp + 8
    rw [e4]
  · intro r hr
    simp only [calleeSaved, List.mem_cons, List.not_mem_nil, or_false] at hr
    rcases hr with rfl | rfl | rfl | rfl | rfl | rfl
    · exact hk.rbx
    · exact hk.rbp
    · exact hk.r12
    · exact hk.r13
    · exact hk.r14
    · exact hk.r15

section
variable (next : BitVec 64) (d : Data) (a b : Gpr) (m : Addr) (v : BitVec 64)

theorem eff_div_q (h0 : d.gpr a ≠ 0) (hq : (d.gpr rdx ++ d.gpr rax).toNat / (d.gpr a).toNat < 2 ^ 64) :
    effect (.un .div .q (.gpr a)) next d
      = some ((d.setGpr rax (BitVec.ofNat 64 ((d.gpr rdx ++ d.gpr rax).toNat / (d.gpr a).toNat))).setGpr rdx
          (BitVec.ofNat 64 ((d.gpr rdx ++ d.gpr rax).toNat % (d.gpr a).toNat)), allFlags) := by
  have ew : d.wide 64 = d.gpr rdx ++ d.gpr rax := by simp only [Data.wide, BitVec.setWidth_eq]
  rw [effect, read_gpr, show d.wide Size.q.bits = d.wide 64 from rfl, ew]
  exact if_pos ⟨rfl, h0, hq⟩

theorem eff_idiv_q (h0 : d.gpr a ≠ 0)
    (hq : (BitVec.ofInt 64 ((d.gpr rdx ++ d.gpr rax).toInt.tdiv (d.gpr a).toInt)).toInt = (d.gpr rdx ++ d.gpr rax).toInt.tdiv (d.gpr a).toInt) :
    effect (.un .idiv .q (.gpr a)) next d
      = some ((d.setGpr rax (BitVec.ofInt 64 ((d.gpr rdx ++ d.gpr rax).toInt.tdiv (d.gpr a).toInt))).setGpr rdx
          (BitVec.ofInt 64 ((d.gpr rdx ++ d.gpr rax).toInt.tmod (d.gpr a).toInt)), allFlags) := by
  have ew : d.wide 64 = d.gpr rdx ++ d.gpr rax := by simp only [Data.wide, BitVec.setWidth_eq]
  rw [effect, read_gpr, show d.wide Size.q.bits = d.wide 64 from rfl, ew]
  exact if_pos ⟨rfl, h0, hq⟩

theorem eff_div_d (h0 : (d.gpr a).setWidth 32 ≠ 0) (hq : (d.wide 32).toNat / ((d.gpr a).setWidth 32).toNat < 2 ^ 32) :
    effect (.un .div .d (.gpr a)) next d
      = some ((d.setGpr rax ((BitVec.ofNat 32 ((d.wide 32).toNat / ((d.gpr a).setWidth 32).toNat)).setWidth 64)).setGpr rdx
          ((BitVec.ofNat 32 ((d.wide 32).toNat % ((d.gpr a).setWidth 32).toNat)).setWidth 64), allFlags) := by
  rw [effect]
  exact if_pos ⟨rfl, h0, hq⟩

theorem eff_div_fault (h : ¬ ((d.gpr a).setWidth 32 ≠ 0 ∧ (d.wide 32).toNat / ((d.gpr a).setWidth 32).toNat < 2 ^ 32)) :
    effect (.un .div .d (.gpr a)) next d = none := by
  rw [effect]
  exact if_neg fun h' => h h'.2

theorem eff_idiv_d (h0 : (d.gpr a).setWidth 32 ≠ 0)
    (hq : (BitVec.ofInt 32 ((d.wide 32).toInt.tdiv ((d.gpr a).setWidth 32).toInt)).toInt = (d.wide 32).toInt.tdiv ((d.gpr a).setWidth 32).toInt) :
    effect (.un .idiv .d (.gpr a)) next d
      = some ((d.setGpr rax ((BitVec.ofInt 32 ((d.wide 32).toInt.tdiv ((d.gpr a).setWidth 32).toInt)).setWidth 64)).setGpr rdx
          ((BitVec.ofInt 32 ((d.wide 32).toInt.tmod ((d.gpr a).setWidth 32).toInt)).setWidth 64), allFlags) := by
  rw [effect]
  exact if_pos ⟨rfl, h0, hq⟩

theorem eff_xor_dd : effect (.alu .xor .d (.gpr a) (.gpr b)) next d
    = some ((d.setGpr a (((d.gpr a).setWidth 32 ^^^ (d.gpr b).setWidth 32).setWidth 64)).setFlags
        (flagsOf ((d.gpr a).setWidth 32 ^^^ (d.gpr b).setWidth 32) false false), {}) := rfl

theorem eff_mov_dd : effect (.mov .d (.gpr a) (.gpr b)) next d = some (d.setGpr a (((d.gpr b).setWidth 32).setWidth 64), {}) := rfl

theorem eff_mov_b : effect (.mov .b (.gpr a) (.imm v)) next d = some (d.setGpr a ((d.gpr a).extractLsb' 8 56 ++ v.setWidth 8), {}) := rfl

theorem eff_cdq : effect (.signExtDx .d) next d
    = some (d.setGpr rdx ((if ((d.gpr rax).setWidth 32).msb then BitVec.allOnes 32 else 0).setWidth 64), {}) := rfl

theorem eff_shift (op : ShiftOp) (c r f u) (hc : (d.gpr b).toNat % 32 = c) (h0 : c ≠ 0)
    (hr : op.run ((d.gpr a).setWidth 32) c d.flags = some (r, f, u)) :
    effect (.shift op .d (.gpr a) (.gpr b)) next d = some ((d.setGpr a (r.setWidth 64)).setFlags f, u) := by
  have e : effect (.shift op .d (.gpr a) (.gpr b)) next d
    = if (d.gpr b).toNat % 32 = 0 then some (d.setGpr a (((d.gpr a).setWidth 32).setWidth 64), {})
      else (op.run ((d.gpr a).setWidth 32) ((d.gpr b).toNat % 32) d.flags).bind fun x =>
        some ((d.setGpr a (x.1.setWidth 64)).setFlags x.2.1, x.2.2) := rfl
  rw [e, hc, if_neg h0, hr]; rfl

theorem eff_cnt_d (op : CntOp) (r f u) (hr : op.run ((d.gpr b).setWidth 32) = some (r, f, u)) :
    effect (.cnt op .d (.gpr a) (.gpr b)) next d = some ((d.setGpr a (r.setWidth 64)).setFlags f, u) := by
  have e : effect (.cnt op .d (.gpr a) (.gpr b)) next d
    = (op.run ((d.gpr b).setWidth 32)).bind fun x => some ((d.setGpr a (x.1.setWidth 64)).setFlags x.2.1, x.2.2) := rfl
  rw [e, hr]; rfl

theorem eff_cnt_m (op : CntOp) (r f u) (hr : op.run (d.load64 (m.ea next d)) = some (r, f, u)) :
    effect (.cnt op .q (.gpr a) (.mem m)) next d = some ((d.setGpr a r).setFlags f, u) := by
  have e : effect (.cnt op .q (.gpr a) (.mem m)) next d
    = (op.run ((d.load64 (m.ea next d)).setWidth 64)).bind fun x => some ((d.setGpr a x.1).setFlags x.2.1, x.2.2) := rfl
  rw [e, BitVec.setWidth_eq, hr]; rfl

theorem eff_lea : effect (.lea .q (.gpr a) m) next d = some (d.setGpr a (m.ea next d), {}) := by
  have e : effect (.lea .q (.gpr a) m) next d = some (d.setGpr a ((m.ea next d).setWidth 64), {}) := rfl
  rw [e, BitVec.setWidth_eq]

theorem eff_movgx (x : BitVec 4) : effect (.movgx .q (.xmm x) (.gpr a)) next d = some (d.setXmm x ((d.gpr a).setWidth 128), {}) := by
  have e : effect (.movgx .q (.xmm x) (.gpr a)) next d = some (d.setXmm x (((d.gpr a).setWidth 64).setWidth 128), {}) := rfl
  rw [e, BitVec.setWidth_eq]

theorem eff_flogic (op ty) (x y : BitVec 4) : effect (.flogic op ty (.xmm x) (.xmm y)) next d
    = some (d.setXmm x (op.run (d.xmm x) (d.xmm y)), {}) := rfl

end

/-! ### Numbers -/

theorem ofInt_fits {x : Int} (h1 : -2 ^ 63 ≤ x) (h2 : x < 2 ^ 63) : (BitVec.ofInt 64 x).toInt = x := by
  rw [BitVec.toInt_ofInt]
  exact Int.bmod_eq_of_le (by omega) (by omega)

theorem tmod_fits {n k : Nat} {x : BitVec k} {y : BitVec n} (h : y ≠ 0#n) : (BitVec.ofInt n (x.toInt.tmod y.toInt)).toInt = x.toInt.tmod y.toInt := by
  rw [BitVec.toInt_ofInt]
  have h0 : y.toInt ≠ 0 := fun e => h (BitVec.eq_of_toInt_eq (by simpa using e))
  have hy := BitVec.le_two_mul_toInt (x := y)
  have hy2 := BitVec.two_mul_toInt_lt (x := y)
  have hm : (x.toInt.tmod y.toInt).natAbs < y.toInt.natAbs := by
    rw [Int.natAbs_tmod]
    exact Nat.mod_lt _ (by omega)
  refine Int.bmod_eq_of_le_mul_two ?_ ?_ <;> · rw [Int.natCast_pow]; simp only [Int.cast_ofNat_Int]; omega

theorem setWidth_32_64 (x : BitVec 32) : (x.setWidth 64).setWidth 32 = x := by
  apply BitVec.eq_of_toNat_eq
  have := x.isLt
  simp only [BitVec.toNat_setWidth]
  omega

theorem tdiv_fits {x y : BitVec 32} (h : ¬ (x = BitVec.intMin 32 ∧ y = -1#32)) :
    (BitVec.ofInt 32 (x.toInt.tdiv y.toInt)).toInt = x.toInt.tdiv y.toInt := by
  have := BitVec.toInt_sdiv_of_ne_or_ne x y
  rw [← BitVec.toInt_sdiv_of_ne_or_ne x y (by by_cases e : x = BitVec.intMin 32; exact .inr fun e2 => h ⟨e, e2⟩; exact .inl e)]
  exact congrArg _ BitVec.ofInt_toInt

/-- edx:eax after `cdq` -/
theorem wide_cdq {d : Data} {x : BitVec 32} (h1 : (d.gpr rax).setWidth 32 = x)
    (h2 : d.gpr rdx = (if x.msb then BitVec.allOnes 32 else 0).setWidth 64) : (d.wide 32).toInt = x.toInt := by
  rw [Data.wide, h1, h2, setWidth_32_64]
  have e : ((if x.msb then BitVec.allOnes 32 else 0) ++ x : BitVec 64) = x.signExtend 64 := by
    rw [BitVec.signExtend_eq_append_of_le (by decide)]
    cases x.msb <;> rfl
  rw [e, BitVec.toInt_signExtend_of_le (by decide)]

theorem eff_idiv_d' (next) (d : Data) (a : Gpr) {x : BitVec 32} (h0 : (d.gpr a).setWidth 32 ≠ 0#32)
    (h1 : ¬ (x = BitVec.intMin 32 ∧ (d.gpr a).setWidth 32 = -1#32)) (hw : (d.wide 32).toInt = x.toInt) :
    effect (.un .idiv .d (.gpr a)) next d
      = some ((d.setGpr rax ((BitVec.ofInt 32 (x.toInt.tdiv ((d.gpr a).setWidth 32).toInt)).setWidth 64)).setGpr rdx
          ((BitVec.ofInt 32 (x.toInt.tmod ((d.gpr a).setWidth 32).toInt)).setWidth 64), allFlags) := by
  rw [eff_idiv_d _ _ _ h0, hw]
  rw [hw]
  exact tdiv_fits h1

theorem low_byte (x : BitVec 56) (v : BitVec 8) {c : Nat} (h : v.toNat % 32 = c) : (x ++ v : BitVec 64).toNat % 32 = c := by
  rw [BitVec.toNat_append, ← h]
  have := v.isLt
  rw [← Nat.shiftLeft_add_eq_or_of_lt v.isLt, Nat.shiftLeft_eq]
  omega

theorem count_32 {n : Nat} (h : n ≤ 32) : ((BitVec.ofNat 32 n).setWidth 64).toNat = n := by
  simp only [BitVec.toNat_setWidth, BitVec.toNat_ofNat]; omega

theorem popCount_le {n} (a : BitVec n) : popCount a ≤ n := by
  have := List.length_filter_le (fun i => a.getLsbD i) (List.range n)
  rwa [List.length_range] at this

theorem trailing_le {n} (a : BitVec n) : trailing a ≤ n := by
  have := List.findIdx_le_length (p := fun i => a.getLsbD i) (xs := List.range n)
  rwa [List.length_range] at this

theorem leading_le {n} (a : BitVec n) : leading a ≤ n := by
  have := List.findIdx_le_length (p := fun i => a.getLsbD (n - 1 - i)) (xs := List.range n)
  rwa [List.length_range] at this

/-- The same for the unsigned number, when it is below 2^31. -/
theorem wide_cdq_nat {d : Data} {x : BitVec 32} (h1 : (d.gpr rax).setWidth 32 = x)
    (h2 : d.gpr rdx = (if x.msb then BitVec.allOnes 32 else 0).setWidth 64) (h : x.toNat < 2 ^ 31) : (d.wide 32).toNat = x.toNat := by
  rw [Data.wide, h1, h2, setWidth_32_64, BitVec.msb_eq_decide, decide_eq_false (by omega), BitVec.toNat_append]
  simp

theorem wide_cdq_big {d : Data} {x : BitVec 32} (h1 : (d.gpr rax).setWidth 32 = x)
    (h2 : d.gpr rdx = (if x.msb then BitVec.allOnes 32 else 0).setWidth 64) (h : 2 ^ 31 ≤ x.toNat) (y : BitVec 32) :
    2 ^ 32 * y.toNat ≤ (d.wide 32).toNat := by
  rw [Data.wide, h1, h2, setWidth_32_64, BitVec.msb_eq_decide, decide_eq_true (by omega), BitVec.toNat_append,
    ← Nat.shiftLeft_add_eq_or_of_lt x.isLt, Nat.shiftLeft_eq]
  have := y.isLt
  simp only [if_true, BitVec.toNat_allOnes]
  omega

theorem cdq_32 (x : BitVec 32) : (if (((x.setWidth 64).setWidth 32)).msb then BitVec.allOnes 32 else 0).setWidth 64
    = (if x.msb then BitVec.allOnes 32 else 0).setWidth 64 := by
  rw [setWidth_32_64]

theorem quot_32 (x y : BitVec 32) : ((BitVec.ofNat 32 (x.toNat / y.toNat)).setWidth 64).toNat = x.toNat / y.toNat := by
  have := Nat.lt_of_le_of_lt (Nat.div_le_self x.toNat y.toNat) x.isLt
  generalize x.toNat / y.toNat = z at *
  simp only [BitVec.toNat_setWidth, BitVec.toNat_ofNat]; omega

theorem rem_32 (x y : BitVec 32) : ((BitVec.ofNat 32 (x.toNat % y.toNat)).setWidth 64).toNat = x.toNat % y.toNat := by
  have := Nat.lt_of_le_of_lt (Nat.mod_le x.toNat y.toNat) x.isLt
  generalize x.toNat % y.toNat = z at *
  simp only [BitVec.toNat_setWidth, BitVec.toNat_ofNat]; omega

theorem eff_div_d' (next) (d : Data) (a : Gpr) {x : BitVec 32} (h0 : (d.gpr a).setWidth 32 ≠ 0#32) (hw : (d.wide 32).toNat = x.toNat) :
    effect (.un .div .d (.gpr a)) next d
      = some ((d.setGpr rax ((BitVec.ofNat 32 (x.toNat / ((d.gpr a).setWidth 32).toNat)).setWidth 64)).setGpr rdx
          ((BitVec.ofNat 32 (x.toNat % ((d.gpr a).setWidth 32).toNat)).setWidth 64), allFlags) := by
  rw [eff_div_d _ _ _ h0, hw]
  rw [hw]
  exact Nat.lt_of_le_of_lt (Nat.div_le_self _ _) x.isLt

/-! ### Data -/

theorem outside_data {base} (hA : Alloc base) : Outside base (DataPage base) := by
  rintro a h1 h2 ⟨b, h3, h4, h5⟩
  have := hA.user
  have := congrArg BitVec.toNat h5
  rw [BitVec.toNat_ofNat, BitVec.toNat_ofNat, Nat.mod_eq_of_lt (by omega), Nat.mod_eq_of_lt (by omega)] at this
  omega

/-- `n` bytes of a data object -/
theorem within_data {base l n bs} {s : JitMemory} (h : Holds base s l 2 n bs) {i k : Nat} (hi : i + k ≤ bs.length) {x : BitVec 64}
    (hx : Within (BitVec.ofNat 64 (labelAddr s l) + BitVec.ofNat 64 i) k x) : DataPage base x := by
  obtain ⟨pos, h1, -, h3, -⟩ := h
  rw [labelAddr_eq h1] at hx
  have e : addrOf base 2 pos = base + 2 * PAGE_SIZE + pos := by rw [addrOf, Nat.mul_comm PAGE_SIZE]
  rw [e] at hx
  refine ⟨base + 2 * PAGE_SIZE + pos + i + (x - (BitVec.ofNat 64 (base + 2 * PAGE_SIZE + pos) + BitVec.ofNat 64 i)).toNat, ?_, ?_, ?_⟩
  · omega
  · rw [Within] at hx
    omega
  · rw [BitVec.ofNat_add, BitVec.ofNat_add, BitVec.ofNat_toNat, BitVec.setWidth_eq, BitVec.add_comm, BitVec.sub_add_cancel]

theorem count_q {base mem is d} {op : CntOp} {i : Inst Val Nat} (g : BitVec 64 → Nat) (hR : Runnable base tests.counts is)
    (hL : Loaded base mem (simple tests.counts is) d)
    (h0 : is[0]? = some (.Label 0)) (h1 : is[1]? = some (.Lea (.reg (.reg 6)) (.ind ⟨.reg 16, .none, .label 1⟩)))
    (h2 : is[2]? = some (.Movq (.reg (.reg 1)) (.imm 8 none)))
    (h3 : is[3]? = some (.Movq (.ind ⟨.reg 6, .s1 1 (.reg 1), .imm 4⟩) (.reg (.reg 7))))
    (h4 : is[4]? = some i)
    (hI : instrAt base mem (simple tests.counts is) encoded (tests.counts.length + 4) i = some (.cnt op .q (.gpr 0) (.mem ⟨.gpr 6, some (1, 1), 4⟩)))
    (h5 : is[5]? = some .Ret)
    (hr : ∀ a : BitVec 64, ∃ f u, op.run a = some (BitVec.ofNat 64 (g a), f, u)) (hg : ∀ a, g a ≤ 64)
    (hS : ∀ x, Within (d.gpr rsp) 8 x → ¬ DataPage base x) :
    Leads Described (fun s => Returned (DataPage base) d s ∧ (s.data.gpr rax).toNat = g (d.gpr rdi)) ⟨codeAt base mem tests.counts is 0, d⟩ := by
  have hD : Holds base (reach base mem (simple tests.counts is)) 1 2 _ _ := C52_datum hR.wf hR.alloc (l := 1) rfl rfl
  generalize hA : BitVec.ofNat 64 (labelAddr (reach base mem (simple tests.counts is)) 1) = A
  refine labelled (j := 0) (l := 0) hR h0 ?_
  have e1 : (Addr.absolute (codeAt base mem tests.counts is 2) ⟨.rip, none,
      dist (labelAddr (reach base mem (simple tests.counts is))) (Spec.place base mem (simple tests.counts is) (tests.counts.length + 1 + 1)) 1⟩).ea
      (codeAt base mem tests.counts is 2) d = A := by
    rw [← hA, ← dist_add]
    simp [Addr.absolute, Addr.ea]
    rfl
  refine lead_det (j := 1) (d1 := d.setGpr 6 A) hR hL h1 rfl rfl (by rw [← e1]; exact eff_lea _ _ _ _) ?_
  refine lead_det (j := 2) (I := .mov .q (.gpr 1) (.imm 8)) hR hL h2 rfl rfl (eff_mov_ri _ _ _ _) ?_
  have e3 : ∀ (n : BitVec 64) (d1 : Data), d1.gpr 6 = A → d1.gpr 1 = 8 → Addr.ea ⟨.gpr 6, some (1, 1), 4⟩ n d1 = A + BitVec.ofNat 64 20 := by
    intro n d1 k1 k2
    simp only [Addr.ea, k1, k2]
    rw [BitVec.add_assoc]
    rfl
  refine lead_det (j := 3) (I := .mov .q (.mem ⟨.gpr 6, some (1, 1), 4⟩) (.gpr 7))
    (d1 := ((d.setGpr 6 A).setGpr 1 8).store64 (A + BitVec.ofNat 64 20) (d.gpr 7)) hR hL h3 rfl rfl
    (by rw [← e3 (codeAt base mem tests.counts is 4) ((d.setGpr 6 A).setGpr 1 8) rfl rfl]; exact eff_mov_mr _ _ _ _) ?_
  have hm : ∀ x, ¬ DataPage base x → (((d.setGpr 6 A).setGpr 1 8).store64 (A + BitVec.ofNat 64 20) (d.gpr 7)).mem x = d.mem x := by
    intro x hx
    exact mem_store64 _ _ _ _ fun h => hx (within_data hD (i := 20) (k := 8) (by decide) (hA ▸ h))
  have hL' := loaded_frame hL (outside_data hR.alloc) hm
  obtain ⟨f, u, hf⟩ := hr (d.gpr 7)
  refine lead_seq (j := 4) hR hL' h4 hI rfl (eff_cnt_m _ _ _ _ op (BitVec.ofNat 64 (g (d.gpr 7))) f u ?_) fun f' _ => ?_
  · rw [show Addr.absolute (codeAt base mem tests.counts is (4 + 1)) ⟨.gpr 6, some (1, 1), 4⟩ = ⟨.gpr 6, some (1, 1), 4⟩ from rfl,
      e3 _ _ rfl rfl, load64_same]
    exact hf
  refine leaf_ret (j := 5) (d0 := d) hR (loaded_same hL' rfl) h5 ⟨rfl, rfl, rfl, rfl, rfl, rfl, rfl⟩ hS hm fun s hr hs => ⟨hr, ?_⟩
  rw [hs]
  show (BitVec.ofNat 64 _).toNat = _
  rw [BitVec.toNat_ofNat]
  have := hg (d.gpr 7)
  exact Nat.mod_eq_of_lt (by omega)

theorem xorpd_wf (foo : Val) : WellFormed [.label] [.Label 0, .Movq (.reg (.reg 0)) (.imm 0x8000000000000000 none), .Movq (.xmm (.no 1)) (.reg (.reg 0)),
    .Xorpd (.no 0) (.xmm (.no 1)), .Ret, .Movq (.reg (.reg 0)) (.imm foo none)] := by
  apply C52_check
  have h1 : acceptedB (.Movq (.reg (.reg 0)) (.imm foo none)) = true := rfl
  have h2 : immOkB (.Movq (.reg (.reg 0)) (.imm foo none)) = true := rfl
  have h3 : meaningfulB (.Movq (.reg (.reg 0)) (.imm foo none)) = true := rfl
  have h4 : (Inst.Movq (.reg (.reg 0)) (.imm foo none)).labels = ([] : List Nat) := rfl
  simp only [wellFormedB, List.all_cons, List.all_nil, h1, h2, h3, h4]
  rw [show placedLabels [.Label 0, .Movq (.reg (.reg 0)) (.imm 0x8000000000000000 none), .Movq (.xmm (.no 1)) (.reg (.reg 0)),
    .Xorpd (.no 0) (.xmm (.no 1)), .Ret, .Movq (.reg (.reg 0)) (.imm foo none)] = [0] from rfl]
  clear h1 h2 h3 h4
  simp only [List.length_cons, List.length_nil, Bool.and_eq_true, decide_eq_true_eq]
  decide +kernel

theorem xorpd_assembled (foo) : assemble (tests.xorpdVars foo) tests.oneLabel tests.xorpd
    = some [.Label 0, .Movq (.reg (.reg 0)) (.imm 0x8000000000000000 none), .Movq (.xmm (.no 1)) (.reg (.reg 0)),
      .Xorpd (.no 0) (.xmm (.no 1)), .Ret, .Movq (.reg (.reg 0)) (.imm foo none)] := by
  have : statements tests.xorpd = some [.Label "begin", .Movq (.reg (.reg 0)) (.imm (.var "mask") none), .Movq (.xmm (.no 1)) (.reg (.reg 0)),
    .Xorpd (.no 0) (.xmm (.no 1)), .Ret, .Movq (.reg (.reg 0)) (.imm (.var "foo") none)] := by decide +kernel
  rw [assemble, this]
  rfl

/-! ### Floating point -/

theorem eff_movqx_mr (next : BitVec 64) (d : Data) (m : Addr) (x : BitVec 4) :
    effect (.movqx (.mem m) (.xmm x)) next d = some (d.store64 (m.ea next d) (tests.double d x), {}) := by
  simp [effect, Opd.write, Opd.read, Opd.value, Size.bits, Size.bytes, store_eq, tests.double]

theorem eff_fop_m (next : BitVec 64) (d : Data) (m : Addr) (x : BitVec 4) (op : FOp) :
    effect (.fop op .sd (.xmm x) (.mem m)) next d
      = some (d.setXmm x (lower (d.xmm x) (op.run (tests.double d x) (d.load64 (m.ea next d)))), {}) := by
  simp [effect, Opd.read, Opd.value, Size.bits, tests.double]

theorem lower_low (x : BitVec 128) (v : BitVec 64) : (lower x v).setWidth 64 = v := by
  apply BitVec.eq_of_getLsbD_eq
  intro i hi
  simp only [lower, BitVec.getLsbD_setWidth]
  rw [BitVec.getLsbD_append]
  simp [hi]

/-- The statements of cvttsd2si.rs. -/
def cvttCode : List (Inst Val Nat) := [.Label 0, .Cvttsd2siq (.reg 0) (.xmm (.no 0)), .Ret]

/-- The statements of minmaxsd.rs. -/
def minmaxCode : List (Inst Val Nat) :=
  [.Label 0, .Lea (.reg (.reg 6)) (.ind ⟨.reg 16, .none, .label 2⟩), .Movq (.reg (.reg 1)) (.imm 8 none),
   .Movq (.ind ⟨.reg 6, .s1 1 (.reg 1), .imm 4⟩) (.xmm (.no 1)), .Minsd (.no 0) (.ind ⟨.reg 6, .s1 1 (.reg 1), .imm 4⟩), .Ret,
   .Label 1, .Lea (.reg (.reg 6)) (.ind ⟨.reg 16, .none, .label 2⟩), .Movq (.reg (.reg 1)) (.imm 8 none),
   .Movq (.ind ⟨.reg 6, .s1 1 (.reg 1), .imm 4⟩) (.xmm (.no 1)), .Maxsd (.no 0) (.ind ⟨.reg 6, .s1 1 (.reg 1), .imm 4⟩), .Ret]

/-- The two functions of minmaxsd.rs, at statement `o`. -/
theorem minmax {base mem is d} {op : FOp} {i : Inst Val Nat} (o l : Nat) (hR : Runnable base tests.minmaxCounts is)
    (hL : Loaded base mem (simple tests.minmaxCounts is) d)
    (h0 : is[o]? = some (.Label l)) (h1 : is[o + 1]? = some (.Lea (.reg (.reg 6)) (.ind ⟨.reg 16, .none, .label 2⟩)))
    (h2 : is[o + 2]? = some (.Movq (.reg (.reg 1)) (.imm 8 none)))
    (h3 : is[o + 3]? = some (.Movq (.ind ⟨.reg 6, .s1 1 (.reg 1), .imm 4⟩) (.xmm (.no 1))))
    (h4 : is[o + 4]? = some i)
    (hI : instrAt base mem (simple tests.minmaxCounts is) encoded (tests.minmaxCounts.length + (o + 4)) i
      = some (.fop op .sd (.xmm 0) (.mem ⟨.gpr 6, some (1, 1), 4⟩)))
    (h5 : is[o + 5]? = some .Ret)
    (hS : ∀ x, Within (d.gpr rsp) 8 x → ¬ DataPage base x) :
    Leads Described (fun s => Returned (DataPage base) d s ∧ tests.double s.data 0 = op.run (tests.double d 0) (tests.double d 1))
      ⟨codeAt base mem tests.minmaxCounts is o, d⟩ := by
  have hD : Holds base (reach base mem (simple tests.minmaxCounts is)) 2 2 _ _ := C52_datum hR.wf hR.alloc (l := 2) rfl rfl
  generalize hA : BitVec.ofNat 64 (labelAddr (reach base mem (simple tests.minmaxCounts is)) 2) = A
  refine labelled (j := o) (l := l) hR h0 ?_
  have e1 : (Addr.absolute (codeAt base mem tests.minmaxCounts is (o + 2)) ⟨.rip, none,
      dist (labelAddr (reach base mem (simple tests.minmaxCounts is)))
        (Spec.place base mem (simple tests.minmaxCounts is) (tests.minmaxCounts.length + (o + 1) + 1)) 2⟩).ea
      (codeAt base mem tests.minmaxCounts is (o + 2)) d = A := by
    rw [← hA, ← dist_add]
    simp [Addr.absolute, Addr.ea]
    rfl
  refine lead_det (j := o + 1) (d1 := d.setGpr 6 A) hR hL h1 rfl rfl (by rw [← e1]; exact eff_lea _ _ _ _) ?_
  refine lead_det (j := o + 2) (I := .mov .q (.gpr 1) (.imm 8)) hR hL h2 rfl rfl (eff_mov_ri _ _ _ _) ?_
  have e3 : ∀ (n : BitVec 64) (d1 : Data), d1.gpr 6 = A → d1.gpr 1 = 8 → Addr.ea ⟨.gpr 6, some (1, 1), 4⟩ n d1 = A + BitVec.ofNat 64 20 := by
    intro n d1 k1 k2
    simp only [Addr.ea, k1, k2]
    rw [BitVec.add_assoc]
    rfl
  refine lead_det (j := o + 3) (I := .movqx (.mem ⟨.gpr 6, some (1, 1), 4⟩) (.xmm 1))
    (d1 := ((d.setGpr 6 A).setGpr 1 8).store64 (A + BitVec.ofNat 64 20) (tests.double d 1)) hR hL h3 rfl rfl
    (by rw [← e3 (codeAt base mem tests.minmaxCounts is (o + 4)) ((d.setGpr 6 A).setGpr 1 8) rfl rfl]; exact eff_movqx_mr _ _ _ _) ?_
  have hm : ∀ x, ¬ DataPage base x → (((d.setGpr 6 A).setGpr 1 8).store64 (A + BitVec.ofNat 64 20) (tests.double d 1)).mem x = d.mem x := by
    intro x hx
    exact mem_store64 _ _ _ _ fun h => hx (within_data hD (i := 20) (k := 8) (by decide) (hA ▸ h))
  have hL' := loaded_frame hL (outside_data hR.alloc) hm
  refine lead_det (j := o + 4) hR hL' h4 hI rfl (eff_fop_m _ _ _ _ op) ?_
  refine leaf_ret (j := o + 5) (d0 := d) hR (loaded_same hL' rfl) h5 ⟨rfl, rfl, rfl, rfl, rfl, rfl, rfl⟩ hS hm fun s hr hs => ⟨hr, ?_⟩
  rw [hs]
  show (lower _ _).setWidth 64 = _
  rw [lower_low, show Addr.absolute (codeAt base mem tests.minmaxCounts is (o + 4 + 1)) ⟨.gpr 6, some (1, 1), 4⟩ = ⟨.gpr 6, some (1, 1), 4⟩ from rfl,
      e3 _ _ rfl rfl, load64_same]
  rfl


theorem lanes_low (f) (x y : BitVec 128) : (lanes f x y).setWidth 64 = f (x.setWidth 64) (y.setWidth 64) := by
  apply BitVec.eq_of_getLsbD_eq
  intro i hi
  simp only [lanes, BitVec.getLsbD_setWidth]
  rw [BitVec.getLsbD_append]
  simp [hi]

theorem eff_round (next : BitVec 64) (d : Data) (x y : BitVec 4) (m : BitVec 8) : effect (.round .pd (.xmm x) (.xmm y) m) next d
    = some (d.setXmm x (lanes (fun _ b => Double.toIntegral (.of m) b) (d.xmm x) (d.xmm y)), {}) := rfl

theorem eff_cvtt_d (next : BitVec 64) (d : Data) (a : Gpr) (x : BitVec 4) : effect (.cvttf2si .sd .d (.gpr a) (.xmm x)) next d
    = some (d.setGpr a ((Double.truncate 32 (tests.double d x)).setWidth 64), {}) := by
  have e : effect (.cvttf2si .sd .d (.gpr a) (.xmm x)) next d
    = some (d.setGpr a ((Double.truncate 32 (((d.xmm x).setWidth 64).setWidth 64)).setWidth 64), {}) := rfl
  rw [e, BitVec.setWidth_eq]; rfl

/-! ### Two results of one call -/

theorem Leads.meet {E : Effect} {P Q : State → Prop} (hP : ∀ s, P s → ∀ s', ¬ X86.Step E s s') (hQ : ∀ s, Q s → ∀ s', ¬ X86.Step E s s')
    {s} (h1 : Leads E P s) (h2 : Leads E Q s) : ∃ s', P s' ∧ Q s' := by
  induction h1 with
  | done h =>
    cases h2 with
    | done h' => exact ⟨_, h, h'⟩
    | step h3 _ => obtain ⟨s', h3⟩ := h3; exact absurd h3 (hP _ h s')
  | step h3 _ ih =>
    obtain ⟨s', h3⟩ := h3
    cases h2 with
    | done h' => exact absurd h3 (hQ _ h' s')
    | step _ h5 => exact ih s' h3 (h5 s' h3)

/-- The processor stops at an `int3`. -/
theorem int3_stops {s : State} (h : s.data.mem s.rip = 0xcc) (s') : ¬ X86.Step Described s s' := by
  rintro (⟨h1, h2⟩)
  rename_i r d I rest _ _
  have h : d.mem r = 0xcc := h
  have e : fetch d.mem r = 0xcc :: ((List.range 14).map (Nat.succ)).map fun i => d.mem (r + BitVec.ofNat 64 i) := by
    rw [fetch, List.range_succ_eq_map]
    simp [h]
  have e2 : ∀ bs, decode (0xcc :: bs) = some (.int3, bs) := fun bs => rfl
  rw [e, e2] at h1
  cases h1
  cases h2 with
  | other _ h => obtain ⟨_, _, h, -⟩ := h; cases h

/-- Two descriptions of the same function agree. -/
theorem computes_meet {pre vars names text entry b1 a1 b2 a2} (h1 : Computes pre vars names text entry Nothing b1 a1)
    (h2 : Computes pre vars names text entry Nothing b2 a2) {is} (hi : assemble vars names text = some is) {base mem} (hA : Alloc base)
    {d : Data} (hL : Loaded base mem (simple pre is) d) (h3 : b1 d) (h4 : b2 d) (h5 : d.mem (d.load64 (d.gpr rsp)) = 0xcc) :
    ∃ d', a1 d d' ∧ a2 d d' := by
  obtain ⟨is1, e1, h1⟩ := h1
  obtain ⟨is2, e2, h2⟩ := h2
  rw [hi] at e1 e2
  cases e1; cases e2
  obtain ⟨-, a, ha, h1⟩ := h1 base mem hA
  obtain ⟨-, a', ha', h2⟩ := h2 base mem hA
  rw [ha] at ha'
  cases ha'
  have stop : ∀ {a : Data → Data → Prop} s, Returned (Nothing base) d s ∧ a d s.data → ∀ s', ¬ X86.Step Described s s' := by
    rintro a s ⟨h, -⟩
    exact int3_stops (by rw [h.rip, h.mem _ id]; exact h5)
  obtain ⟨s, h6, h7⟩ := Leads.meet stop stop (h1 d hL (fun _ _ => id) h3) (h2 d hL (fun _ _ => id) h4)
  exact ⟨s.data, h6.2, h7.2⟩

end Monoasm
