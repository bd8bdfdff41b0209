import Verif.Proofs.Host
import Verif.Props.C61
/-
  C72: calls of functions of the process. The functions are outside of the memory of the `JitMemory`
  (`Spec/Host.lean`).
-/

namespace Monoasm
open Spec X86

variable {base : Nat} {mem : Nat → Monoasm.Byte} {pre : List NewCall} {is : List (Inst Val Nat)} {E : Effect} {F : Host}
  {vs : List Visit} {n m j : Nat} {d d' : Data} {s s' : State}

/-- Whatever the functions outside do, as long as they come back to statements of the program: they are
    entered in exactly the states in which the source program enters them. -/
theorem C72 (hw : WellFormed pre is) (hA : Alloc base) (h : Mixed base (AtStatement base mem pre is) E F vs s s')
    (hn : placeW base mem (simple pre is) n = s.rip) :
    ∃ m, MixedSource base mem (simple pre is) E F vs n s.data m s'.data ∧ placeW base mem (simple pre is) m = s'.rip := by
  induction h generalizing n with
  | stay h =>
    obtain ⟨m, h1, h2⟩ := C61 hw hA h hn
    exact ⟨m, .stay h1, h2⟩
  | @visit k s s1 s2 s3 s' vs h1 h2 h3 h4 h5 ih =>
    obtain ⟨m1, a1, a2⟩ := C61 hw hA h1 hn
    obtain ⟨m2, b1, b2⟩ := step_leaves hw hA (through_last h1) a2 h2 h3
    have hs3 : AtStatement base mem pre is s3 := by
      cases h5 with
      | stay h => cases h <;> assumption
      | visit h => cases h <;> assumption
    obtain ⟨j, i, -, -, -, hr, -⟩ := hs3
    obtain ⟨m, c1, c2⟩ := ih (n := pre.length + j) hr.symm
    obtain ⟨r3, d3⟩ := s3
    simp only at hr
    subst hr
    exact ⟨m, .visit (sourceRun_append a1 b1) b2 h4 c1, c2⟩

/-- Conversely, the processor does what the source program does, with the same visits. -/
theorem C72_back (hw : WellFormed pre is) (hA : Alloc base) (h : MixedSource base mem (simple pre is) E F vs n d m d') :
    Mixed base (fun _ => True) E F vs ⟨placeW base mem (simple pre is) n, d⟩ ⟨placeW base mem (simple pre is) m, d'⟩ := by
  induction h with
  | stay h => exact .stay (through_of_steps (C61_back hw hA h))
  | visit h1 h2 h3 _ ih =>
    obtain ⟨-, -, -, -, -, -, -, hf, -⟩ := id h2
    exact .visit (through_of_steps (C61_back hw hA h1)) (leaves_step hw hA h2) hf h3 ih

/-- The program leaves at no other statements: jumps and calls to labels stay in the pages, whatever
    the labels are bound to. -/
theorem C72_inside (hw : WellFormed pre is) (hA : Alloc base) {i : Inst Val Nat} (hj : is[j]? = some i)
    (hi : placedLabel i = none ∧ isData i = false) (hI : Intact base mem (simple pre is) (pre.length + j) d)
    (h : X86.Step E ⟨codeAt base mem pre is j, d⟩ s') (hf : Foreign base s'.rip) :
    i = .Ret ∨ (∃ t, (i = .Jmp t ∨ i = .Call t) ∧ ∀ l, t ≠ .rel l) := by
  obtain ⟨h1, I, h2, h3, -⟩ := leaves_at hw hA hj hi.1 hi.2 hI h hf
  rcases encoded_control h2 h3 with rfl | ⟨c, l, rfl⟩ | ⟨t, ht⟩
  · exact .inl rfl
  · cases h1
  · refine .inr ⟨t, ht, ?_⟩
    rintro l rfl
    rcases ht with rfl | rfl <;> cases h1

/-- A call of a function by its address: it is entered with the address of the next statement on top
    of the stack, and if it obeys the calling convention and does not write to the code or to its
    return address, then the program goes on with the next statement. -/
theorem C72_call (hw : WellFormed pre is) (hA : Alloc base) {i : Inst Val Nat} {o : Opd} {W : BitVec 64 → Prop} (hj : is[j]? = some i)
    (hI : instrAt base mem (simple pre is) encoded (pre.length + j) i = some (.callInd o))
    (hL : Loaded base mem (simple pre is) d) (hs : Outside base (Below (d.gpr rsp) 8)) (hW : Outside base W)
    (hF : Obeys E W (o.value (codeAt base mem pre is (j + 1)) d) (d.push (codeAt base mem pre is (j + 1)))) :
    Leads E (CameBack base mem pre is W (j + 1) d) ⟨codeAt base mem pre is j, d⟩ := by
  refine lead_exec (is := is) ⟨hw, hA⟩ hL hj hI ⟨_, _, .callInd⟩ fun r d' hx => ?_
  cases hx with
  | callInd => exact Leads.mono hF fun s h => came_back hL hs hW h
  | other hc => cases hc

/-- `puts` of the manual, anywhere in a program: it calls the function `PUTINT` with the register as
    the argument. -/
theorem C72_puts {vars : String → Spec.Val} {names : String → Nat} {reg : Nat} (hr : reg < 4) (hv : vars "reg" = BitVec.ofNat 64 reg) :
    ∃ i1 i2 i3, assemble vars names putsText = some [i1, i2, i3] ∧
      ∀ {base mem pre is j d W}, WellFormed pre is → Alloc base → is[j]? = some i1 → is[j + 1]? = some i2 → is[j + 2]? = some i3 →
        Loaded base mem (simple pre is) d → Outside base (Below (d.gpr rsp) 8) → Outside base W →
        Obeys Described W (vars "monoasm::test::PUTINT") (((d.setGpr rdi (d.gpr (BitVec.ofNat 4 (12 + reg)))).setGpr rax
          (vars "monoasm::test::PUTINT")).push (codeAt base mem pre is (j + 3))) →
        Leads Described (CameBack base mem pre is W (j + 3) d) ⟨codeAt base mem pre is j, d⟩ := by
  refine ⟨_, _, _, by rw [assemble, puts_statements]; rfl, ?_⟩
  intro base mem pre is j d W hw hA h1 h2 h3 hL hs hW hF
  have hR : Runnable base pre is := ⟨hw, hA⟩
  have e1 : ∀ rel, encoded rel (.Movq (.reg (.reg 7)) (.reg (.expr (vars "reg" + 12)))) = some (.mov .q (.gpr 7) (.gpr (BitVec.ofNat 4 (12 + reg)))) := by
    intro rel
    rw [hv]
    rcases (by omega : reg = 0 ∨ reg = 1 ∨ reg = 2 ∨ reg = 3) with rfl | rfl | rfl | rfl <;> rfl
  refine lead_det hR hL h1 (e1 _) rfl (eff_mov_rr _ _ _ _) ?_
  refine lead_det (I := .mov .q (.gpr 0) (.imm (vars "monoasm::test::PUTINT"))) hR hL h2 rfl rfl (eff_mov_ri _ _ _ _) ?_
  refine (C72_call (i := .Call (.reg 0)) (o := .gpr 0) (d := (d.setGpr 7 (d.gpr (BitVec.ofNat 4 (12 + reg)))).setGpr 0 _)
    hw hA h3 rfl hL hs hW hF).mono ?_
  rintro s ⟨a, b, c, e, f⟩
  exact ⟨a, b, fun r hr => (c r hr).trans (by
    simp only [calleeSaved, List.mem_cons, List.not_mem_nil, or_false] at hr
    rcases hr with rfl | rfl | rfl | rfl | rfl | rfl <;> rfl), e, f⟩

/-- A function of the program that calls another function obeys the calling convention if the other
    one does: here `f: prologue; puts(0); epilogue` with the texts of the manual, `PUTINT` being at any
    address `p`. -/
theorem C72_function (hA : Alloc base) {p : Spec.Val} {a : Nat} {W : BitVec 64 → Prop}
    (ha : JitMemory.get_label_u64 0 (reach base mem (simple [.label] (callsPutint p)))
      = .ok a (reach base mem (simple [.label] (callsPutint p))))
    (hL : Loaded base mem (simple [.label] (callsPutint p)) d) (hs : Outside base (Below (d.gpr rsp) 16)) (hW : Outside base W)
    (hW' : ∀ x, Within (d.gpr rsp - 8) 16 x → ¬ W x)
    (hF : ∀ d1, d1.gpr rdi = d.gpr 12 → d1.gpr rsp = d.gpr rsp - 16 → (∀ x, ¬ Below (d.gpr rsp) 16 x → d1.mem x = d.mem x) →
      Obeys Described W p d1) :
    Obeys Described (fun x => W x ∨ Below (d.gpr rsp) 16 x) (BitVec.ofNat 64 a) d := by
  have hw := callsPutint_wf p
  obtain ⟨⟨-, h2⟩, -⟩ := C52_label (mem := mem) hw hA (j := 0) (l := 0) rfl
  rw [h2] at ha
  injection ha with ha
  rw [← ha]
  have hR : Runnable base [.label] (callsPutint p) := ⟨hw, hA⟩
  generalize hS : d.gpr rsp = S at *
  have hS4 : d.gpr 4 = S := hS
  show Leads Described _ ⟨codeAt base mem [.label] (callsPutint p) 0, d⟩
  refine labelled (j := 0) (l := 0) hR rfl ?_
  -- pushq rbp
  refine lead_det (j := 1) (I := .push (.gpr 5)) hR hL rfl rfl rfl (eff_push _ _ _) ?_
  have b8 : ∀ x, Below S 8 x → Below S 16 x := fun x h => by simp only [Below] at *; omega
  have hm1 : ∀ x, ¬ Below S 16 x → (d.push (d.gpr 5)).mem x = d.mem x := fun x hx =>
    pushed_mem _ _ (by rw [hS]; exact fun h => hx (b8 x h))
  have hL1 : Loaded base mem (simple [.label] (callsPutint p)) (d.push (d.gpr 5)) := loaded_frame hL hs hm1
  have g1 : (d.push (d.gpr 5)).gpr 4 = S - 8 := by rw [← hS]; rfl
  have t1 : (d.push (d.gpr 5)).load64 (S - 8) = d.gpr 5 := by rw [← g1]; exact pushed_top _ _
  have r1 : ∀ r, r ≠ 4 → (d.push (d.gpr 5)).gpr r = d.gpr r := fun r h => pushed_gpr _ _ h
  generalize d.push (d.gpr 5) = d1 at *
  -- movq rbp, rsp
  refine lead_det (j := 2) (I := .mov .q (.gpr 5) (.gpr 4)) hR hL1 rfl rfl rfl (eff_mov_rr _ _ _ _) ?_
  have b16 : ∀ x, Below (S - 8) 8 x → Below S 16 x := fun x h => by
    simp only [Below, BitVec.toNat_sub, BitVec.toNat_ofNat, BitVec.ofNat_eq_ofNat] at *; omega
  -- puts
  obtain ⟨i1, i2, i3, ht, hp⟩ := C72_puts (vars := fun x => if x = "reg" then 0 else p) (names := fun _ => 0) (reg := 0) (by decide) rfl
  have ht' : assemble (fun x => if x = "reg" then 0 else p) (fun _ => 0) putsText
      = some [.Movq (.reg (.reg 7)) (.reg (.expr (0 + 12))), .Movq (.reg (.reg 0)) (.imm p none), .Call (.reg 0)] := by
    rw [assemble, puts_statements]; rfl
  rw [ht'] at ht
  cases ht
  have g2 : (d1.setGpr 5 (d1.gpr 4)).gpr rsp = S - 8 := g1
  refine Leads.bind (hp (j := 3) (d := d1.setGpr 5 (d1.gpr 4)) (W := W) hw hA rfl rfl rfl hL1 ?_ hW (hF _ ?_ ?_ ?_)) ?_
  · rw [g2]
    exact fun a h1 h2 h => hs a h1 h2 (b16 _ h)
  · exact r1 12 (by decide)
  · show d1.gpr 4 - 8 = _
    rw [g1, BitVec.sub_sub]; rfl
  · intro x hx
    exact (pushed_mem _ _ fun h => hx (b16 x (by rw [← g1]; exact h))).trans (hm1 x hx)
  rintro ⟨rip, d6⟩ ⟨rfl, c2, c3, c4, hL6⟩
  simp only [g2] at c2 c3 c4 hL6
  have c5 : d6.gpr 5 = S - 8 := by rw [c3 5 (by decide)]; exact g1
  have c6 : ∀ x, ¬ W x → ¬ Below (S - 8) 8 x → d6.mem x = d1.mem x := c4
  -- movq rsp, rbp
  refine lead_det (j := 6) (I := .mov .q (.gpr 4) (.gpr 5)) hR hL6 rfl rfl rfl (eff_mov_rr _ _ _ _) ?_
  -- popq rbp
  refine lead_det (j := 7) (I := .pop (.gpr 5)) hR hL6 rfl rfl rfl (eff_pop _ _ _) ?_
  have t6 : d6.load64 (S - 8) = d.gpr 5 := by
    rw [← t1]
    refine load64_congr _ _ fun x hx => c6 x (hW' x ?_) fun h => ?_
    · simp only [Within] at *; omega
    · simp only [Within, Below, BitVec.toNat_sub, BitVec.toNat_ofNat, BitVec.ofNat_eq_ofNat] at *; omega
  have e : ((d6.setGpr 4 (d6.gpr 5)).drop.setGpr 5 ((d6.setGpr 4 (d6.gpr 5)).load64 ((d6.setGpr 4 (d6.gpr 5)).gpr X86.rsp))).gpr 5 = d.gpr 5 := by
    show d6.load64 (d6.gpr 5) = _
    rw [c5, t6]
  have k : ∀ r ∈ calleeSaved, r ≠ 5 → d6.gpr r = d.gpr r := by
    intro r hr h5
    have h4 : r ≠ 4 := by rintro rfl; revert hr; decide
    rw [c3 r hr, ← r1 r h4]
    exact if_neg h5
  refine leaf_ret (j := 8) (d0 := d) hR hL6 rfl ⟨k 3 (by decide) (by decide), ?_, e, k 12 (by decide) (by decide), k 13 (by decide) (by decide),
    k 14 (by decide) (by decide), k 15 (by decide) (by decide)⟩ ?_ ?_ fun s hr _ => hr
  · show d6.gpr 5 + 8 = _
    rw [c5, hS4, BitVec.sub_add_cancel]
  · intro x hx
    rw [hS] at hx
    rintro (h | h)
    · refine hW' x ?_ h
      simp only [Within, BitVec.toNat_sub, BitVec.toNat_ofNat, BitVec.ofNat_eq_ofNat] at *; omega
    · simp only [Within, Below, BitVec.toNat_sub, BitVec.toNat_ofNat, BitVec.ofNat_eq_ofNat] at *; omega
  · intro x hx
    obtain ⟨hx1, hx2⟩ := not_or.1 hx
    show d6.mem x = _
    rw [c6 x hx1 fun h => hx2 (b16 x h), hm1 x hx2]

/-- The hypotheses are satisfiable: the function outside is at 0x5000 and returns, the stack is at the
    top of the user address space. -/
example : ∃ d : Data, Alloc 0x10000000 ∧ Loaded 0x10000000 (fun _ => 0xcc) (simple [.label] (callsPutint 0x5000)) d
    ∧ Outside 0x10000000 (Below (d.gpr rsp) 16)
    ∧ ∀ d1 : Data, (∀ x, ¬ Below (d.gpr rsp) 16 x → d1.mem x = d.mem x) → Obeys Described (fun _ => False) 0x5000 d1 := by
  have hA : Alloc 0x10000000 := ⟨by rw [PAGE_SIZE_eq]; decide, by decide, by rw [PAGE_SIZE_eq]; decide⟩
  have hl := loaded_above (mem := fun _ => 0xcc) hA (simple [.label] (callsPutint 0x5000)) (fun r => if r = rsp then 0x7ffffffff000 else 0)
    (fun _ => 0) ⟨false, false, false, false, false⟩ 0xc3
  generalize hm : (reach 0x10000000 (fun _ => 0xcc) (simple [.label] (callsPutint 0x5000))).mem = m at hl
  refine ⟨_, hA, hl, ?_, ?_⟩
  · intro a h1 h2 hb
    rw [PAGE_SIZE_eq] at h2
    simp only [Below, if_pos] at hb
    rw [show (0x7ffffffff000 : BitVec 64) - 1 = 0x7fffffffefff#64 from rfl, BitVec.toNat_sub, BitVec.toNat_ofNat, BitVec.toNat_ofNat] at hb
    omega
  · intro d1 h
    refine obeys_ret fun i hi => ?_
    have e : ((0x5000 : BitVec 64) + BitVec.ofNat 64 i).toNat = 0x5000 + i := by
      rw [BitVec.toNat_add, BitVec.toNat_ofNat, show (0x5000 : BitVec 64).toNat = 0x5000 from rfl]; omega
    refine (h _ ?_).trans (if_pos (by rw [e]; omega))
    simp only [Below, if_pos]
    rw [show (0x7ffffffff000 : BitVec 64) - 1 = 0x7fffffffefff#64 from rfl, BitVec.toNat_sub, e, BitVec.toNat_ofNat]
    omega

/-- Such a function is entered from the program, and comes back to the statement after the call. -/
example (d : Data) (hL : Loaded 0x10000000 (fun _ => 0xcc) (simple [] [.Call (.reg 0), .Ret]) d) (hr : d.gpr 0 = 0x5000)
    (hs : Outside 0x10000000 (Below (d.gpr rsp) 8)) :
    ∃ d3, Mixed 0x10000000 (AtStatement 0x10000000 (fun _ => 0xcc) [] [.Call (.reg 0), .Ret]) E
        (fun s s' => s' = ⟨s.data.load64 (s.data.gpr rsp), s.data.drop⟩)
        [(⟨0x5000, d.push (codeAt 0x10000000 (fun _ => 0xcc) [] [.Call (.reg 0), .Ret] 1)⟩, ⟨codeAt 0x10000000 (fun _ => 0xcc) [] [.Call (.reg 0), .Ret] 1, d3⟩)]
        ⟨codeAt 0x10000000 (fun _ => 0xcc) [] [.Call (.reg 0), .Ret] 0, d⟩ ⟨codeAt 0x10000000 (fun _ => 0xcc) [] [.Call (.reg 0), .Ret] 1, d3⟩ := by
  have hw : WellFormed [] [.Call (.reg 0), .Ret] := C52_check (by decide +kernel)
  have hA : Alloc 0x10000000 := ⟨by rw [PAGE_SIZE_eq]; decide, by decide, by rw [PAGE_SIZE_eq]; decide⟩
  have hi := loaded_intact hL
  have hL2 : Loaded 0x10000000 (fun _ => 0xcc) (simple [] [.Call (.reg 0), .Ret])
      (d.push (codeAt 0x10000000 (fun _ => 0xcc) [] [.Call (.reg 0), .Ret] 1)).drop :=
    loaded_frame hL hs fun x hx => pushed_mem _ _ hx
  refine ⟨_, .visit (.zero ⟨0, _, rfl, rfl, rfl, rfl, hi 0⟩) ?_ ?_ ?_ (.stay (.zero ⟨1, _, rfl, rfl, rfl, rfl, loaded_intact hL2 1⟩))⟩
  · refine (C52_step_encoded (j := 0) (I := .callInd (.gpr 0)) hw hA rfl rfl (hi 0)).2 ?_
    rw [← hr]
    exact .callInd
  · exact .inl (show (0x5000 : BitVec 64).toNat < 0x10000000 by decide)
  · show _ = (⟨_, _⟩ : State)
    rw [pushed_top]
    rfl

end Monoasm
