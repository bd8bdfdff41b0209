import Verif.Proofs.Correct
import Verif.Props.C44
/-
  C34: control transfer.

  `Faithful` relates the code to the addresses `la` of the labels; `C34_after_finalize` is about the
  addresses that the labels have once `finalize` has been called.
-/

namespace Monoasm
open Spec

/-- jmp, jcc, call, ret, leave, syscall, int3 with all their operands. -/
theorem C34_control (i : Inst Val Nat) (h : IsControl i) : Correct i :=
  correct (fun _ => isControl_accepted h) (by cases h <;> simp) (by cases h <;> simp)

/-- A direct jump or call of a label, once linked, goes to the label. -/
theorem C34_target {s s' la mem} (l : Nat) (c : Cond) (hl : Linked s s' la mem) (hn : Near la (here s')) (rest) :
    (Runs (.Jmp (.rel l)) s s' → ∃ d, X86.decode (bytes mem (here s) (here s' - here s) ++ rest) = some (.jmpRel d, rest)
        ∧ BitVec.ofNat 64 (here s') + d = BitVec.ofNat 64 (la l))
    ∧ (Runs (.Call (.rel l)) s s' → ∃ d, X86.decode (bytes mem (here s) (here s' - here s) ++ rest) = some (.callRel d, rest)
        ∧ BitVec.ofNat 64 (here s') + d = BitVec.ofNat 64 (la l))
    ∧ (Runs (.Jcc c l) s s' → ∃ d, X86.decode (bytes mem (here s) (here s' - here s) ++ rest) = some (.jcc (cc c) d, rest)
        ∧ BitVec.ofNat 64 (here s') + d = BitVec.ofNat 64 (la l)) :=
  ⟨fun h => ⟨_, (C34_control _ (.jmp _ (by simp))).faithful _ _ _ _ _ h hl hn rfl rest, dist_spec la _ l⟩,
   fun h => ⟨_, (C34_control _ (.call _)).faithful _ _ _ _ _ h hl hn rfl rest, dist_spec la _ l⟩,
   fun h => ⟨_, (C34_control _ (.jcc _ _)).faithful _ _ _ _ _ h hl hn rfl rest, dist_spec la _ l⟩⟩

/-- After a `finalize` at which the label is bound, and whatever follows it, a direct jump or call
    of a label goes to the address that `get_label_address` gives for the label. -/
theorem C34_after_finalize {base mem h1 h h2 h3 s1 s'} {i : Inst Val Nat} {l a : Nat} {t}
    (hi : IsTransfer i l t)
    (hA : Alloc base) (e : h = h2 ++ .finalize :: h3)
    (hr : NoRaw (h1 ++ [.inst i] ++ h)) (hf : KeepsLabels (JitMemory.new base mem) (h1 ++ [.inst i] ++ h))
    (hrun : Runs i (reach base mem h1) s1)
    (hk : SparesRange (here (reach base mem h1)) (here s1 - here (reach base mem h1)) s1 h)
    (hb : BindsOnce l (JitMemory.new base mem) (h1 ++ [.inst i] ++ h))
    (hfin : JitMemory.finalize (reach base mem (h1 ++ [.inst i] ++ h2)) = .ok () s') (hbd : ∃ a, HasAddress s' l a)
    (ha : HasAddress (reach base mem (h1 ++ [.inst i] ++ h)) l a) (tail : List Byte) :
    ∃ d, X86.decode (bytes (reach base mem (h1 ++ [.inst i] ++ h)).mem (here (reach base mem h1))
          (here s1 - here (reach base mem h1)) ++ tail) = some (t d, tail)
      ∧ BitVec.ofNat 64 (here s1) + d = BitVec.ofNat 64 a := by
  refine ⟨dist (labelAddr (reach base mem (h1 ++ [.inst i] ++ h))) (here s1) l, ?_, ?_⟩
  · have hm : ∀ l', i.mentions l' → l' = l := by
      cases hi <;> simp [Inst.mentions, Inst.labels, Dest.labels]
    refine C44_instruction_partial hA e hr hf hrun ?_ hk (fun l' hl' => hm l' hl' ▸ hb) hfin
        (fun l' hl' => hm l' hl' ▸ hbd) (by cases hi <;> rfl) tail
    cases hi <;> exact ⟨.inl ⟨fun _ => 0, _, rfl⟩, by simp, by simp⟩
  · rw [← labelAddr_eq ha]; exact dist_spec _ _ l

/-- `call [r11 + 16]`. -/
example : ∃ s', Runs (.Call (.ind ⟨.reg 11, .none, .imm 16⟩)) ex0 s'
    ∧ ∀ rest, X86.decode (bytes s'.mem (here ex0) (here s' - here ex0) ++ rest)
      = some (.callInd (.mem ⟨.gpr 11, none, 16⟩), rest) :=
  assembled (C34_control _ (.call _)) (fun _ => rfl) (fun _ _ h => by cases h)
    (by simp [Inst.mentions, Inst.labels, Dest.labels, IndAddr.labels, MDisp.labels])

/-- `jne l` to a label 0x100 bytes into the page. -/
example : ∃ s' mem, Runs (.Jcc .Ne 0) ex1 s' ∧ Linked ex1 s' (fun _ => 0x10000100) mem
    ∧ (∀ rest, ∃ d,
      X86.decode (bytes mem (here ex1) (here s' - here ex1) ++ rest) = some (.jcc 5 d, rest)
      ∧ BitVec.ofNat 64 (here s') + d = 0x10000100) := by
  obtain ⟨s', h⟩ := (C34_control _ (.jcc .Ne 0)).assembles ex1 ⟨fun _ => 0, _, rfl⟩ (fun n v h => by cases h)
    (fun l h => by
      have : l = 0 := by simpa [Inst.mentions, Inst.labels] using h
      subst this; exact Nat.zero_lt_one) room_ex1
  obtain ⟨mem, hl⟩ := linkable h (fun _ => 0x10000100)
  have hn : Near (fun _ => 0x10000100) (here s') := fun l => by
    have := runs_here h; rw [here_ex1] at this; dsimp only; constructor <;> omega
  exact ⟨s', mem, h, hl, fun rest => (C34_target 0 .Ne hl hn rest).2.2 h⟩

/-- `call l` on page 0, where `l` is bound on page 1 before the `finalize`; code follows. -/
example : ∃ s1 s' a,
    let h1 : List Op := [.new .label, .inst .Leave]
    let h2 : List Op := [.select_page 1, .inst .Int3, .inst (.Label 0)]
    let H := h1 ++ [.inst (.Call (.rel 0))] ++ (h2 ++ .finalize :: [.inst .Ret])
    NoRaw H ∧ KeepsLabels (JitMemory.new 0x10000000 fun _ => 0xcc) H
    ∧ Runs (.Call (.rel 0)) (reach 0x10000000 (fun _ => 0xcc) h1) s1
    ∧ SparesRange 0x10000001 (here s1 - 0x10000001) s1 (h2 ++ .finalize :: [.inst .Ret])
    ∧ BindsOnce 0 (JitMemory.new 0x10000000 fun _ => 0xcc) H
    ∧ JitMemory.finalize (reach 0x10000000 (fun _ => 0xcc) (h1 ++ [.inst (.Call (.rel 0))] ++ h2)) = .ok () s'
    ∧ HasAddress s' 0 a ∧ HasAddress (reach 0x10000000 (fun _ => 0xcc) H) 0 a := by
  have hf : KeepsLabels (JitMemory.new 0x10000000 fun _ => 0xcc) ([.new .label, .inst .Leave] ++ [.inst (.Call (.rel 0))]
      ++ ([.select_page 1, .inst .Int3, .inst (.Label 0)] ++ .finalize :: [.inst .Ret])) := by decide +kernel
  obtain ⟨s', e⟩ := Res.isOk_iff.1 (show (JitMemory.finalize (reach 0x10000000 (fun _ => 0xcc)
    ([.new .label, .inst .Leave] ++ [.inst (.Call (.rel 0))] ++ [.select_page 1, .inst .Int3, .inst (.Label 0)]))).isOk = true
      by decide +kernel)
  have e' : s' = (JitMemory.finalize (reach 0x10000000 (fun _ => 0xcc)
    ([.new .label, .inst .Leave] ++ [.inst (.Call (.rel 0))] ++ [.select_page 1, .inst .Int3, .inst (.Label 0)]))).state := by
      rw [e]; rfl
  obtain ⟨s1, h1⟩ : ∃ s1, Runs (.Call (.rel 0)) (reach 0x10000000 (fun _ => 0xcc) [.new .label, .inst .Leave]) s1 := by
    have : ∃ m, compile (.Call (.rel 0)) = .ok m
        ∧ (m (reach 0x10000000 (fun _ => 0xcc) [.new .label, .inst .Leave])).isOk = true := ⟨_, rfl, by decide +kernel⟩
    obtain ⟨m, h1, h2⟩ := this
    obtain ⟨s1, h2⟩ := Res.isOk_iff.1 h2
    exact ⟨s1, m, h1, h2⟩
  refine ⟨s1, s', 0x10000000 + PAGE_SIZE + 1, by decide +kernel, hf, h1, by simp [SparesRange, Along, Overwrites], ?_, e, ?_, ?_⟩
  · exact C44_once (b := .inst (.Label 0)) (hc := []) 
        (hm := [.inst .Leave, .inst (.Call (.rel 0)), .select_page 1, .inst .Int3])
        (ht := [.finalize, .inst .Ret]) hf (by simp) (by simp [Op.binds, countNew]) (by simp [Op.binds])
  · have hi := (finalize_run (inv_reach _ _ _) e).inv
    exact hasAddress_of_loc hi (by decide) (p := 1) (c := 1) (by rw [e']; decide +kernel)
  · exact hasAddress_of_loc (inv_reach _ _ _) (by decide) (p := 1) (c := 1) (by decide +kernel)

end Monoasm
