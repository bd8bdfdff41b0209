import Verif.Spec.Host
import Verif.Proofs.Converse
import Verif.Proofs.Leads
import Verif.Proofs.Past
import Verif.Proofs.Tests
/-
  Helper lemmas for C72.
-/

namespace Monoasm
open Spec X86 JitMemory

variable {base : Nat} {mem : Nat → Monoasm.Byte} {pre : List NewCall} {is : List (Inst Val Nat)} {E : Effect} {F : Host}

/-- The statements that are control transfers. -/
theorem meaning_control {rel i I} (h : meaning rel i = some I) (hc : I.isControl = true) :
    i = .Ret ∨ (∃ c l, i = .Jcc c l) ∨ ∃ t, i = .Jmp t ∨ i = .Call t := by
  cases i
  all_goals first
    | exact .inl rfl
    | exact .inr (.inl ⟨_, _, rfl⟩)
    | exact .inr (.inr ⟨_, .inl rfl⟩)
    | exact .inr (.inr ⟨_, .inr rfl⟩)
    | exfalso
  all_goals first
    | cases h; done
    | (cases h; cases hc; done)
    | skip
  all_goals simp only [meaning, Spec.alu, Spec.mov, Spec.movq, Spec.ext, Spec.xchg, Spec.shift, Spec.sse, Spec.un, Option.bind_eq_bind, Option.bind_eq_some_iff, Option.pure_def, Option.some.injEq] at h
  all_goals repeat' first
    | (cases h; done)
    | (cases h; cases hc; done)
    | (obtain ⟨_, _, h⟩ := h)
    | split at h
    | simp only [Option.bind_eq_some_iff, Option.some.injEq] at h

theorem encoded_control {rel i I} (h : encoded rel i = some I) (hc : I.isControl = true) :
    i = .Ret ∨ (∃ c l, i = .Jcc c l) ∨ ∃ t, i = .Jmp t ∨ i = .Call t := by
  unfold encoded at h
  split at h
  · simp only [Option.bind_eq_bind, Option.bind_eq_some_iff, Option.pure_def, Option.some.injEq] at h
    obtain ⟨_, _, _, _, rfl⟩ := h
    cases hc
  · exact meaning_control h hc
  · exact meaning_control h hc

/-- Labels have addresses in the three pages. -/
theorem address_home {H : List Op} {l a : Nat} (hA : Alloc base) (h : HasAddress (reach base mem H) l a) :
    base ≤ a ∧ a ≤ base + 3 * PAGE_SIZE := by
  obtain ⟨p, c, h1, rfl⟩ := (hasAddress_iff (inv_reach base mem H) hA.pos).1 h
  obtain ⟨i, hi, hl⟩ := Option.bind_eq_some_iff.1 h1
  obtain ⟨h2, h3⟩ := (inv_reach base mem H).loc l i hi p c hl
  have h2 : p ≤ 2 := Nat.le_of_lt_succ h2
  have := Nat.mul_le_mul_left PAGE_SIZE h2
  rw [addrOf]
  omega

theorem not_foreign (hA : Alloc base) {a : Nat} (h1 : base ≤ a) (h2 : a ≤ base + 3 * PAGE_SIZE) : ¬ Foreign base (BitVec.ofNat 64 a) := by
  have := hA.user
  rw [Foreign, BitVec.toNat_ofNat, Nat.mod_eq_of_lt (by omega)]
  omega

theorem place_home (hw : WellFormed pre is) (hA : Alloc base) (n : Nat) : ¬ Foreign base (placeW base mem (simple pre is) n) := by
  have := place_bound hw base mem n
  have h0 : base ≤ Spec.place base mem (simple pre is) n := by
    rw [Spec.place, here_eq (inv_reach base mem _)]; omega
  exact not_foreign hA h0 (by omega)

/-- The statement at which a step to a foreign address is made. -/
theorem leaves_at (hw : WellFormed pre is) (hA : Alloc base) {j : Nat} {i : Inst Val Nat} {d : Data} {s' : State} (hj : is[j]? = some i)
    (hl : placedLabel i = none) (hd : isData i = false) (hI : Intact base mem (simple pre is) (pre.length + j) d)
    (h : X86.Step E ⟨codeAt base mem pre is j, d⟩ s') (hf : Foreign base s'.rip) :
    isDirect i = false ∧ ∃ I, instrAt base mem (simple pre is) encoded (pre.length + j) i = some I ∧ I.isControl = true
      ∧ Exec E (placeW base mem (simple pre is) (pre.length + j + 1)) I d s'.rip s'.data := by
  obtain ⟨rip', d'⟩ := s'
  simp only at hf
  obtain ⟨hv, -⟩ := place_strict (mem := mem) hw hA hj hl hd
  obtain ⟨t, ht⟩ := simple_runs hw base mem
  have hn := simple_label_at (pre := pre) hj
  have hR := simple_ready hw hA mem hn
  obtain ⟨I, hI2⟩ := encoded_some hv (dist (labelAddr (reach base mem (simple pre is))) (Spec.place base mem (simple pre is) (pre.length + j + 1)))
  replace h := (step_at hA (noRaw_simple pre is) (keepsLabels_runOps ht) hn hR hI2 hI).1 h
  have next := place_home (mem := mem) hw hA (pre.length + j + 1)
  have lab : ∀ l, i.mentions l → ¬ Foreign base (placeW base mem (simple pre is) (pre.length + j + 1)
      + dist (labelAddr (reach base mem (simple pre is))) (Spec.place base mem (simple pre is) (pre.length + j + 1)) l) := by
    intro l hm
    rw [placeW, dist_add]
    rcases hw.defined i (List.mem_of_getElem? hj) l hm with ⟨c, hc, hne⟩ | h
    · obtain ⟨a, h1, -⟩ := object_behind hw hA mem hc hne
      rw [labelAddr_eq h1]
      obtain ⟨h2, h3⟩ := address_home hA h1
      exact not_foreign hA h2 h3
    · obtain ⟨j2, hj2⟩ := List.mem_iff_getElem?.1 h
      have h1 := (C52_label (mem := mem) hw hA hj2).1
      rw [labelAddr_eq h1]
      obtain ⟨h2, h3⟩ := address_home hA h1
      exact not_foreign hA h2 h3
  refine ⟨?_, I, hI2, ?_, h⟩
  · cases hdir : isDirect i with
    | false => rfl
    | true =>
      exfalso
      unfold isDirect at hdir
      split at hdir
      · cases hI2
        cases h with
        | jmpRel => exact lab _ (by simp [Inst.mentions, Inst.labels, Dest.labels]) hf
        | other h => cases h
      · cases hI2
        cases h with
        | jcc =>
          split at hf
          · exact lab _ (by simp [Inst.mentions, Inst.labels]) hf
          · exact next hf
        | other h => cases h
      · cases hI2
        cases h with
        | callRel => exact lab _ (by simp [Inst.mentions, Inst.labels, Dest.labels]) hf
        | other h => cases h
      · cases hdir
  · cases hc : I.isControl with
    | true => rfl
    | false =>
      cases h with
      | other => exact absurd hf next
      | _ => cases hc

/-- A step to a foreign address is one by which the source program leaves. -/
theorem step_leaves (hw : WellFormed pre is) (hA : Alloc base) {s s' : State} {n : Nat} (hs : AtStatement base mem pre is s)
    (hn : placeW base mem (simple pre is) n = s.rip) (h : X86.Step E s s') (hf : Foreign base s'.rip) :
    ∃ m, SourceRun base mem (simple pre is) encoded E 0 n s.data m s.data ∧ Leaves base mem (simple pre is) E m s.data s' := by
  obtain ⟨j, i, hj, hl, hd, hrip, hI⟩ := hs
  obtain ⟨rip, d⟩ := s
  simp only at hrip hI hn
  subst hrip
  obtain ⟨h1, I, h2, h3, h4⟩ := leaves_at hw hA hj hl hd hI h hf
  exact ⟨_, skip_to (M := encoded) (E := E) (d := d) hw hA hj hl hd hn, i, I, simple_label_at hj, h1, h2, h3, h4, hf, hI⟩

/-- And back. -/
theorem leaves_step (hw : WellFormed pre is) (hA : Alloc base) {n : Nat} {d : Data} {s : State}
    (h : Leaves base mem (simple pre is) E n d s) : X86.Step E ⟨placeW base mem (simple pre is) n, d⟩ s := by
  obtain ⟨i, I, h1, -, h2, -, h3, -, h4⟩ := h
  obtain ⟨j, rfl, hj⟩ := simple_at h1
  exact (C52_step_encoded hw hA hj h2 h4).2 h3

theorem through_of_steps {k : Nat} {s s' : State} (h : Steps E k s s') : Through (fun _ => True) E k s s' := by
  induction h with
  | zero => exact .zero trivial
  | succ h _ ih => exact .succ trivial h ih

theorem within_below {a x : BitVec 64} (h : Within (a - 8) 8 x) : Below a 8 x := by
  simp only [Within, Below, BitVec.toNat_sub, BitVec.toNat_ofNat, BitVec.ofNat_eq_ofNat] at *
  omega

theorem pushed_gpr (d : Data) (v : BitVec 64) {r : Gpr} (h : r ≠ X86.rsp) : (d.push v).gpr r = d.gpr r := if_neg h

theorem pushed_mem (d : Data) (v : BitVec 64) {x : BitVec 64} (h : ¬ Below (d.gpr X86.rsp) 8 x) : (d.push v).mem x = d.mem x :=
  mem_store64 _ _ _ _ fun hw => h (within_below hw)

theorem pushed_top (d : Data) (v : BitVec 64) : (d.push v).load64 ((d.push v).gpr X86.rsp) = v := load64_same _ _ _

/-- A call of a function that obeys the calling convention comes back. -/
theorem came_back {W : BitVec 64 → Prop} {j : Nat} {d : Data} {s : State} (hL : Loaded base mem (simple pre is) d)
    (hs : Outside base (Below (d.gpr X86.rsp) 8)) (hW : Outside base W)
    (h : Returned W (d.push (codeAt base mem pre is j)) s) : CameBack base mem pre is W j d s := by
  have hm : ∀ x, ¬ W x → ¬ Below (d.gpr X86.rsp) 8 x → s.data.mem x = d.mem x := fun x h1 h2 => by rw [h.mem x h1, pushed_mem _ _ h2]
  refine ⟨h.rip.trans (pushed_top _ _), h.rsp.trans ?_, fun r hr => ?_, hm, ?_⟩
  · show d.gpr X86.rsp - 8 + 8 = _
    rw [BitVec.sub_add_cancel]
  · rw [h.saved r hr, pushed_gpr]
    rintro rfl
    revert hr
    decide
  · exact fun a h1 h2 => by rw [hm _ (hW a h1 h2) (hs a h1 h2)]; exact hL a h1 h2

theorem through_last {P : State → Prop} {k : Nat} {s s' : State} (h : Through P E k s s') : P s' := by
  induction h with
  | zero h => exact h
  | succ _ _ _ ih => exact ih

/-- A function outside that only returns (`ret`). -/
theorem obeys_ret {d : Data} {p : BitVec 64} (h : ∀ i, i < 15 → d.mem (p + BitVec.ofNat 64 i) = 0xc3) : Obeys E (fun _ => False) p d := by
  have hd : decode (fetch d.mem p) = some (.ret, List.replicate 14 0xc3) := by
    have : fetch d.mem p = List.replicate 15 0xc3 := by
      rw [List.eq_replicate_iff]
      refine ⟨by simp [fetch], fun b hb => ?_⟩
      simp only [fetch, List.mem_map, List.mem_range] at hb
      obtain ⟨i, hi, rfl⟩ := hb
      exact h i hi
    rw [this]
    decide +kernel
  refine .step ⟨_, .mk hd .ret⟩ ?_
  intro s' hs
  cases hs with
  | mk h1 h2 =>
    rw [hd] at h1
    cases h1
    cases h2 with
    | ret => exact .done ⟨rfl, rfl, fun r hr => if_neg (by rintro rfl; revert hr; decide), fun _ _ => rfl⟩
    | other h => cases h

/-- Memory can contain the program and something else below it. -/
theorem loaded_above (hA : Alloc base) (H : List Op) (g x f) (c : Monoasm.Byte) :
    Loaded base mem H ⟨g, x, f, fun a => if a.toNat < base then c else (reach base mem H).mem a.toNat⟩ := by
  intro a h1 h2
  have := hA.user
  show (if (BitVec.ofNat 64 a).toNat < base then c else (reach base mem H).mem (BitVec.ofNat 64 a).toNat) = _
  rw [BitVec.toNat_ofNat, Nat.mod_eq_of_lt (by omega), if_neg (by omega)]

theorem puts_statements : statements putsText = some [.Movq (.reg (.reg 7)) (.reg (.expr (.add (.var "reg") (.value 12)))),
    .Movq (.reg (.reg 0)) (.imm (.var "monoasm::test::PUTINT") none), .Call (.reg 0)] := by decide +kernel

theorem callsPutint_wf (p : Spec.Val) : WellFormed [.label] (callsPutint p) := C52_check (by rfl)

end Monoasm
