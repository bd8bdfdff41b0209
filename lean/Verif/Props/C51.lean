import Verif.Proofs.Live
import Verif.Proofs.Order
/-
  C51: when `finalize` succeeds.
-/

namespace Monoasm
open Spec

variable {base : Nat} {mem : Nat → Byte}

/-- After any history of calls (also with caught panics), `finalize` returns if and only if the
    pending objects fit behind the code, the labels they name exist, and the fields to be filled are
    inside their pages. -/
theorem C51 (h : List Op) :
    (∃ s', JitMemory.finalize (reach base mem h) = .ok () s')
      ↔ HasRoom (reach base mem h) ∧ NamesKnown (reach base mem h) ∧ FieldsFit (reach base mem h) :=
  finalize_iff (inv_reach base mem h)

/-- If no call panicked so far, all that can go wrong is lack of room for the objects, or an
    `abs_address` of a label that does not exist. -/
theorem C51_clean {h : List Op} {s : JitMemory} (hr : NoRaw h) (hs : runOps h (JitMemory.new base mem) = .ok () s) :
    (∃ s', JitMemory.finalize s = .ok () s')
      ↔ HasRoom s ∧ ∀ x l, Queued s (.absAddress x) l → x < s.labels.length := by
  obtain ⟨hl, hi⟩ := live_runOps (inv_new base mem) hr hs (live_new base mem)
  have hv : HInv base s := by
    have := hinv_reach (base := base) (mem := mem) hr
    rwa [reach, runCaught_of_ok hs] at this
  rw [finalize_iff hi]
  constructor
  · rintro ⟨h1, h2, -⟩
    exact ⟨h1, fun x l h => (h2 _ l h).2 x rfl⟩
  · rintro ⟨h1, h2⟩
    refine ⟨h1, fun d l h => ⟨?_, fun x e => h2 x l (e ▸ h)⟩, fun l t ht _ => hl l t ht⟩
    obtain ⟨p, hp, hw⟩ := h
    have hmem : ∃ q, (q, d, l) ∈ objects s := by
      rcases page_lt_two hp with rfl | rfl <;> rcases hw with hw | hw
      · exact ⟨0, by simp [objects, hw]⟩
      · exact ⟨DATA_PAGE, by simp [objects, hw]⟩
      · exact ⟨1, by simp [objects, hw]⟩
      · exact ⟨DATA_PAGE, by simp [objects, hw]⟩
    obtain ⟨q, hq⟩ := hmem
    exact hv.fresh _ hq

/-- In particular it succeeds when no constant or data object is pending. -/
theorem C51_code {h : List Op} {s : JitMemory} (hr : NoRaw h) (hs : runOps h (JitMemory.new base mem) = .ok () s)
    (hn : ∀ d l, ¬ Queued s d l) : ∃ s', JitMemory.finalize s = .ok () s' := by
  obtain ⟨-, hi⟩ := live_runOps (inv_new base mem) hr hs (live_new base mem)
  have hc : ∀ p, p < 2 → (s.pages p).constants = [] := fun p hp =>
    List.eq_nil_iff_forall_not_mem.2 fun x hx => hn x.1 x.2 ⟨p, hp, .inl hx⟩
  have hd : ∀ p, p < 2 → (s.pages p).data = [] := fun p hp =>
    List.eq_nil_iff_forall_not_mem.2 fun x hx => hn x.1 x.2 ⟨p, hp, .inr hx⟩
  refine (C51_clean hr hs).2 ⟨⟨?_, ?_, ?_⟩, fun x l h => absurd h (hn _ l)⟩
  · rw [hc 0 (by decide)]; exact hi.counter 0
  · rw [hc 1 (by decide)]; exact hi.counter 1
  · rw [hd 0 (by decide), hd 1 (by decide)]; exact hi.counter 2

/-- Calling it again at once succeeds. -/
theorem C51_again {h : List Op} {s : JitMemory} (hr : NoRaw h) (hs : runOps (h ++ [.finalize]) (JitMemory.new base mem) = .ok () s) :
    ∃ s', JitMemory.finalize s = .ok () s' := by
  refine C51_code (noRaw_append.2 ⟨hr, by simp [NoRaw]⟩) hs fun d l ⟨p, hp, hw⟩ => ?_
  obtain ⟨t, h1, h2⟩ := runOps_append.1 hs
  obtain ⟨-, hi⟩ := live_runOps (inv_new base mem) hr h1 (live_new base mem)
  have f := finalize_run hi (runOps_finalize.1 h2)
  rw [f.pages p (Nat.lt_trans hp (by decide))] at hw
  rcases page_lt_two hp with rfl | rfl <;> simp at hw

/-- Code, constants and data that fill two pages exactly: `finalize` returns. -/
example :
    let h : List Op := [.new .label, .inst (.Jmp (.rel 0)), .new (.constant 0xfffffe8), .new (.abs_address 0), .new (.data PAGE_SIZE)]
    ∃ s, runOps h (JitMemory.new 0x10000000 fun _ => 0xcc) = .ok () s ∧ ∃ s', JitMemory.finalize s = .ok () s' := by
  intro h
  obtain ⟨s, hs⟩ := Res.isOk_iff.1 (show (runOps h (JitMemory.new 0x10000000 fun _ => 0xcc)).isOk = true by decide +kernel)
  have e : s = (runOps h (JitMemory.new 0x10000000 fun _ => 0xcc)).state := by rw [hs]; rfl
  have e1 : (s.pages 0).constants = [(.bytes 0xfffffe8, 1), (.absAddress 0, 2)] := by rw [e]; decide +kernel
  have e2 : (s.pages 0).data = [(.bytes PAGE_SIZE, 3)] := by rw [e]; decide +kernel
  have e3 : (s.pages 1).constants = [] ∧ (s.pages 1).data = [] := by rw [e]; decide +kernel
  have e4 : s.labels.length = 4 := by rw [e]; decide +kernel
  have e5 : cursor s 0 = 5 ∧ cursor s 1 = 0 ∧ cursor s 2 = 0 := by rw [e]; decide +kernel
  refine ⟨s, hs, (C51_clean (by simp [NoRaw, h]) hs).2 ⟨⟨?_, ?_, ?_⟩, ?_⟩⟩
  · rw [e5.1, e1]; decide
  · rw [e5.2.1, e3.1]; decide
  · rw [e5.2.2, e2, e3.2]; decide
  · rintro x l ⟨p, hp, h⟩
    rw [e4]
    rcases page_lt_two hp with rfl | rfl
    · rw [e1, e2] at h
      simp at h
      rw [h.1]; decide
    · simp [e3] at h

/-- One byte of code, and a constant as large as the page: `finalize` panics. -/
example : ¬ ∃ s', JitMemory.finalize (reach 0x10000000 (fun _ => 0xcc) [.inst .Ret, .new (.constant PAGE_SIZE)]) = .ok () s' :=
  fun h => absurd ((C51 _).1 h).1.page0 (by decide +kernel)

end Monoasm
