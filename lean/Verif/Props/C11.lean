import Verif.Proofs.Failed
/-
  C11: late binding.

  Histories as in C09. `targets s l` are the fields recorded for label `l` and not yet filled.
-/

namespace Monoasm
open Spec

variable {base : Nat} {mem : Nat → Byte} {h1 h2 h3 : List Op} {l : DestLabel} {t : TargetType}

/-- A field stays pending across any further calls, with any number of `finalize`s among them, as
    long as its label is still unbound after each of those. -/
theorem C11_waits (hr : NoRaw (h1 ++ h2)) (hf : KeepsLabels (JitMemory.new base mem) (h1 ++ h2))
    (ht : t ∈ targets (reach base mem h1) l) (hu : UnboundAtFinalize l (reach base mem h1) h2) :
    t ∈ targets (reach base mem (h1 ++ h2)) l := by
  rw [noRaw_append] at hr
  rw [keepsLabels_append] at hf
  rw [reach, runCaught_append]
  exact pending_stays (hinv_reach (base := base) (mem := mem) hr.1) hr.2 hf.2 ht hu

/-- Pending fields hold zeros (unless the program itself overwrites them by indexed writes or
    patches). A field that does not fit its page belongs to an instruction whose emission panicked. -/
theorem C11_zero {h : List Op} (hr : NoRaw h) (hf : KeepsLabels (JitMemory.new base mem) h)
    (hk : SparesPending (JitMemory.new base mem) h)
    (ht : t ∈ targets (reach base mem h) l) (hl : Live t) :
    bytes (reach base mem h).mem (addrOf base t.page t.pos) t.size = List.replicate t.size 0 := by
  have hz := along_induct (base := base) (P := Zeroed) (fun s op h1 h2 h3 h4 h5 => zeroed_op h1 h2 h3 h5 h4)
    (hinv_new base mem) hr hf hk (zeroed_new base mem)
  refine bytes_of_at (List.length_replicate ..) fun i hi => ?_
  rw [List.length_replicate] at hi
  have := hz l t ht hl (t.pos + i) ⟨rfl, Nat.le_add_right _ _, Nat.add_lt_add_left hi _⟩
  have hc := (hinv_reach (base := base) (mem := mem) hr).inv.contents t.page
  have e : runCaught h (JitMemory.new base mem) = reach base mem h := rfl
  simp only [byteAt, e, hc] at this
  rw [List.getElem_replicate, ← this]
  simp only [addrOf, Nat.add_assoc]

/-- The first `finalize` at which the label is bound (after the history `h2`, in which it was
    unbound at every `finalize`) resolves the field, and no later call changes it back (except
    indexed writes and patches aimed at the field itself). -/
theorem C11_filled {s' : JitMemory} {a : Nat} (hA : Alloc base) (hr : NoRaw (h1 ++ h2))
    (hf : KeepsLabels (JitMemory.new base mem) (h1 ++ h2))
    (ht : t ∈ targets (reach base mem h1) l) (hu : UnboundAtFinalize l (reach base mem h1) h2)
    (hfin : JitMemory.finalize (reach base mem (h1 ++ h2)) = .ok () s') (ha : HasAddress s' l a)
    (hk : SparesField t s' h3) :
    LeadsTo base (reach base mem (h1 ++ h2 ++ .finalize :: h3)).mem a t := by
  have ht2 := C11_waits hr hf ht hu
  have hi := hinv_reach (base := base) (mem := mem) hr
  have f := finalize_hinv hi hfin
  have hi' : HInv base s' := by
    have := hinv_op (op := .finalize) hi (by simp)
    simpa only [Op.run, hfin, Res.state_ok] using this
  have e : reach base mem (h1 ++ h2 ++ .finalize :: h3) = runCaught h3 s' := by
    rw [reach, runCaught_append, runCaught_cons]
    show runCaught h3 (JitMemory.finalize (reach base mem (h1 ++ h2))).state = _
    rw [hfin]; rfl
  rw [e]
  refine resolved_congr (fun pos hc => ?_) (resolved_field f hA ht2 ha)
  have hb : s'.locOf l ≠ none := by
    obtain ⟨q, c, hl, _⟩ := (hasAddress_iff f.inv hA.pos).1 ha
    rw [hl]; simp
  have := (sealed_caught f.inv (sealed_filled hi hfin hb ht2 hc) (hk pos hc)).2
  simpa only [byteAt, (inv_caught f.inv h3).contents, f.inv.contents, addrOf] using this

/-- A forward jump on page 0; two `finalize`s, emissions and a page switch before the label is bound
    on page 1; a third `finalize`, and code after it. -/
example :
    let h1 : List Op := [.new .label, .inst (.Jmp (.rel 0)), .new (.abs_address 0)]
    let h2 : List Op := [.finalize, .inst .Ret, .select_page 1, .finalize, .inst .Leave, .bind_label 0]
    let h3 : List Op := [.inst .Ret, .finalize]
    let s := reach 0x10000000 (fun _ => 0xcc) h1
    NoRaw (h1 ++ h2) ∧ KeepsLabels (JitMemory.new 0x10000000 (fun _ => 0xcc)) (h1 ++ h2 ++ .finalize :: h3)
    ∧ targets s 0 = [.rel 0 4 1] ∧ UnboundAtFinalize 0 s h2
    ∧ (JitMemory.finalize (reach 0x10000000 (fun _ => 0xcc) (h1 ++ h2))).state.locOf 0 = some (1, 1)
    ∧ bytes (reach 0x10000000 (fun _ => 0xcc) (h1 ++ h2 ++ .finalize :: h3)).mem 0x10000001 4
        = littleEndian 4 (0x20000001 - 0x10000005) := by
  intro h1 h2 h3 s
  refine ⟨by decide +kernel, by decide +kernel, by decide +kernel, ?_, by decide +kernel, by decide +kernel⟩
  have key : ∀ x : JitMemory, (JitMemory.get_label_pos 0 (JitMemory.finalize x).state).error = some .noPositionBinding →
      ∀ s', JitMemory.finalize x = .ok () s' → JitMemory.get_label_pos 0 s' = .panic .noPositionBinding s' := by
    intro x hx s' hs
    rw [hs, Res.state_ok] at hx
    have hst := get_label_pos_state 0 s'
    cases e : JitMemory.get_label_pos 0 s' with
    | ok a s2 => rw [e] at hx; cases hx
    | panic er s2 => rw [e] at hx hst; cases hx; simp only [Res.state_panic] at hst; rw [hst]
  refine ⟨fun _ => key _ (by decide +kernel), by simp, by simp, fun _ => key _ (by decide +kernel), by simp, by simp, trivial⟩

end Monoasm
