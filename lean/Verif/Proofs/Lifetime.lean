import Verif.Spec.Lifetime
import Verif.Proofs.Session
/-
  Lemmas for C75: `JitMemory::new`, and worlds.
-/

namespace Monoasm
open Spec

variable {w w' : System} {r : Option JitMemory} {j : JitMemory}

/-- The ways `JitMemory::new` can go. -/
theorem create_iff : JitMemory.create w r w' ↔ ∃ x w1, Os.alloc (PAGE_SIZE * 3) PAGE_SIZE w (some x) w1 ∧
    ((Os.protect x (PAGE_SIZE * 2) .READ_WRITE_EXECUTE w1 (some false) w' ∧ r = none)
      ∨ ∃ w2, Os.protect x (PAGE_SIZE * 2) .READ_WRITE_EXECUTE w1 (some true) w2 ∧
        ((Os.protect (x + PAGE_SIZE * 2) PAGE_SIZE .READ_WRITE w2 (some false) w' ∧ r = none)
          ∨ (Os.protect (x + PAGE_SIZE * 2) PAGE_SIZE .READ_WRITE w2 (some true) w' ∧ r = some (JitMemory.new x w'.mem)))) := by
  have hl : layoutOk (PAGE_SIZE * 3) PAGE_SIZE = true := by decide +kernel
  simp only [JitMemory.create, Bind.bind, Os.bind, Pure.pure, Os.pure, Os.expect, Os.memory, hl, if_true]
  have n1 : ∀ {x s p} {w w' : System}, ¬ Os.protect x s p w none w' := by rintro x s p w w' ⟨k, ok, h, -⟩; cases h
  constructor
  · rintro (⟨⟨h, -⟩, -⟩ | ⟨u, w0, ⟨-, rfl⟩, h⟩)
    · cases h
    rcases h with ⟨h | ⟨x, h, -⟩, -⟩ | ⟨x, w1, h1, h⟩
    · cases h.1
    · cases h
    refine ⟨x, w1, h1, ?_⟩
    rcases h with h | ⟨b, w2, h2, h⟩
    · exact absurd h.1 n1
    cases b with
    | false =>
      rcases h with ⟨⟨-, rfl⟩, rfl⟩ | ⟨u, _, ⟨h, -⟩, -⟩
      · exact .inl ⟨h2, rfl⟩
      · cases h
    | true =>
      refine .inr ⟨w2, h2, ?_⟩
      rcases h with ⟨⟨h, -⟩, -⟩ | ⟨u, _, ⟨-, rfl⟩, h⟩
      · cases h
      rcases h with h | ⟨b, w3, h3, h⟩
      · exact absurd h.1 n1
      cases b with
      | false =>
        rcases h with ⟨⟨-, rfl⟩, rfl⟩ | ⟨u, _, ⟨h, -⟩, -⟩
        · exact .inl ⟨h3, rfl⟩
        · cases h
      | true =>
        rcases h with ⟨⟨h, -⟩, -⟩ | ⟨u, _, ⟨-, rfl⟩, h⟩
        · cases h
        rcases h with ⟨⟨h, -⟩, -⟩ | ⟨m, _, ⟨h, rfl⟩, rfl, rfl⟩
        · cases h
        · cases h
          exact .inr ⟨h3, rfl⟩
  · rintro ⟨x, w1, h1, h⟩
    refine .inr ⟨(), w, ⟨trivial, rfl⟩, .inr ⟨x, w1, h1, .inr ?_⟩⟩
    rcases h with ⟨h, rfl⟩ | ⟨w2, h2, h⟩
    · exact ⟨false, w', h, .inl ⟨⟨rfl, rfl⟩, rfl⟩⟩
    refine ⟨true, w2, h2, .inr ⟨(), w2, ⟨rfl, rfl⟩, .inr ?_⟩⟩
    rcases h with ⟨h, rfl⟩ | ⟨h, rfl⟩
    · exact ⟨false, w', h, .inl ⟨⟨rfl, rfl⟩, rfl⟩⟩
    · exact ⟨true, w', h, .inr ⟨(), w', ⟨rfl, rfl⟩, .inr ⟨_, w', ⟨rfl, rfl⟩, rfl, rfl⟩⟩⟩

/-- What other blocks see of it. -/
def Spares (w w' : System) : Prop :=
  (∀ b ∈ w.blocks, b ∈ w'.blocks) ∧ ∀ b ∈ w.blocks, ∀ a, Os.inBlock b a → w'.map a = w.map a ∧ w'.mem a = w.mem a

/-- `JitMemory::new` panics, or it has a new block with the right protection; other blocks stay as they are. -/
theorem create_spec (hw : HeapSound w) (hc : JitMemory.create w r w') :
    HeapSound w' ∧ Spares w w' ∧ ∀ j, r = some j → ∃ x, Alloc x ∧ j = JitMemory.new x w'.mem ∧ w'.blocks = (x, PAGE_SIZE * 3) :: w.blocks
      ∧ (∀ b ∈ w.blocks, x + PAGE_SIZE * 3 ≤ b.1 ∨ b.1 + b.2 ≤ x)
      ∧ (∀ a, x ≤ a → a < x + 2 * PAGE_SIZE → w'.map a = some .READ_WRITE_EXECUTE)
      ∧ (∀ a, x + 2 * PAGE_SIZE ≤ a → a < x + 3 * PAGE_SIZE → w'.map a = some .READ_WRITE) := by
  have hP : 0 < PAGE_SIZE := by rw [PAGE_SIZE_eq]; decide
  obtain ⟨x, w1, h1, h⟩ := create_iff.mp hc
  clear hc
  rcases h1 with ⟨h1, e0⟩ | ⟨_, h1, hx0, hxa, hxu, hb, hap, hrw, hk, hn⟩
  · -- null
    cases h1
    subst w1
    have no : ∀ {w2}, ¬ Os.protect 0 (PAGE_SIZE * 2) .READ_WRITE_EXECUTE w (some true) w2 := by
      rintro w2 ⟨k, ok, e, -, e', h, -⟩
      cases e
      exact (h 0 ⟨Nat.le_refl _, by rw [e' rfl]; show 0 < 0 + _; omega⟩).1 hw.null
    rcases h with ⟨⟨k, ok, e, h1, h2, h3, h4, h5, h6⟩, rfl⟩ | ⟨w2, h2, -⟩
    · have hk : k = 0 := by
        rcases Nat.eq_zero_or_pos k with h | h
        · exact h
        · exact absurd hw.null (h3 0 ⟨Nat.le_refl _, by show 0 < 0 + k; omega⟩).1
      subst hk
      have hm : w'.map = w.map := funext fun a => h4 a fun h => by have := h.1; have := h.2; simp only at *; omega
      refine ⟨⟨by rw [hm]; exact hw.null, by rw [h5]; exact hw.apart⟩, ⟨fun b hb => by rw [h5]; exact hb, fun b hb a ha => ⟨by rw [hm], by rw [h6]⟩⟩, ?_⟩
      intro j hj; cases hj
    · exact absurd h2 no
  cases h1
  have hs1 : HeapSound w1 := ⟨hn, by rw [hb]; exact List.pairwise_cons.mpr ⟨fun b hb => hap b hb, hw.apart⟩⟩
  have hk1 : Spares w w1 := ⟨fun b h => by rw [hb]; exact .tail _ h, hk⟩
  -- `protect` inside of the block
  have prot : ∀ {y s p ok} {v v' : System}, Os.protect y s p v (some ok) v' → x ≤ y → y + s ≤ x + PAGE_SIZE * 3 → v.blocks = w1.blocks →
      HeapSound v → Spares w v → HeapSound v' ∧ Spares w v' ∧ v'.blocks = w1.blocks ∧ v'.mem = v.mem := by
    rintro y s p ok v v' ⟨k, _, e, e1, -, e3, e4, e5, e6⟩ hy hs hbl hv hkv
    have out : ∀ a, (a < x ∨ x + PAGE_SIZE * 3 ≤ a) → v'.map a = v.map a := fun a ha => e4 a fun h => by
      have := h.1; have := h.2; simp only at *; omega
    refine ⟨⟨?_, by rw [e5]; exact hv.apart⟩, ⟨fun b h => by rw [e5]; exact hkv.1 b h, fun b h a ha => ?_⟩, e5.trans hbl, e6⟩
    · rw [out 0 (.inl hx0)]; exact hv.null
    · rw [out a, e6]
      · exact hkv.2 b h a ha
      · have := hap b h
        have := ha.1; have := ha.2
        omega
  rcases h with ⟨h, rfl⟩ | ⟨w2, h2, h⟩
  · obtain ⟨g1, g2, -⟩ := prot h (Nat.le_refl _) (by omega) rfl hs1 hk1
    exact ⟨g1, g2, fun j hj => by cases hj⟩
  obtain ⟨g1, g2, g3, g4⟩ := prot h2 (Nat.le_refl _) (by omega) rfl hs1 hk1
  rcases h with ⟨h, rfl⟩ | ⟨h3, rfl⟩
  · obtain ⟨g1, g2, -⟩ := prot h (by omega) (by omega) g3 g1 g2
    exact ⟨g1, g2, fun j hj => by cases hj⟩
  obtain ⟨f1, f2, f3, f4⟩ := prot h3 (by omega) (by omega) g3 g1 g2
  refine ⟨f1, f2, fun j hj => ?_⟩
  cases hj
  refine ⟨x, ⟨hxa, hx0, by omega⟩, rfl, f3.trans hb, hap, fun a h1 h4 => ?_, fun a h1 h4 => ?_⟩
  · obtain ⟨k, _, e, -, e2, e3, e4, -⟩ := h3
    obtain ⟨k', _, e', -, e2', e3', e4', -⟩ := h2
    cases e; cases e'
    rw [e4 a fun h => by have := h.1; simp only at this; omega]
    exact (e3' a ⟨h1, by rw [e2' rfl]; show a < x + _; omega⟩).2
  · obtain ⟨k, _, e, -, e2, e3, e4, -⟩ := h3
    cases e
    exact (e3 a ⟨by show x + _ ≤ a; omega, by rw [e2 rfl]; show a < x + _ + _; omega⟩).2

theorem owns_block {x a : Nat} : Owns x a ↔ Os.inBlock (x, PAGE_SIZE * 3) a := by
  simp only [Owns, Os.inBlock]; omega

theorem slot_other {s : Slot} (h : s.Good w) (hb : (s.base, PAGE_SIZE * 3) ∈ w'.blocks)
    (hm : ∀ a, Owns s.base a → w'.map a = w.map a ∧ (a < s.base + 2 * PAGE_SIZE → w'.mem a = w.mem a)) : s.Good w' where
  alloc := h.alloc
  block := hb
  code := fun a h1 h2 => (hm a ⟨h1, by omega⟩).1.trans (h.code a h1 h2)
  data := fun a h1 h2 => (hm a ⟨by omega, h2⟩).1.trans (h.data a h1 h2)
  records := h.records
  bytes := fun a h1 h2 => ((hm a ⟨h1, by omega⟩).2 h2).trans (h.bytes a h1 h2)

theorem slot_spared {s : Slot} (h : s.Good w) (hs : Spares w w') : s.Good w' :=
  slot_other h (hs.1 _ h.block) fun a ha => ⟨(hs.2 _ h.block a (owns_block.mp ha)).1, fun _ => (hs.2 _ h.block a (owns_block.mp ha)).2⟩

/-- A call on a `JitMemory`. -/
theorem slot_call {s : Slot} (h : s.Good w) (op : Op)
    (hp : op.isPatch → ∀ a, Overwrites { s.jit with mem := w.mem } op a → Owns s.base a) :
    let t := (op.run { s.jit with mem := w.mem }).state
    let s' : Slot := { s with jit := t, calls := s.calls ++ [op] }
    s'.base = s.base ∧ s'.Good { w with mem := t.mem } ∧ ∀ a, ¬ Owns s.base a → t.mem a = w.mem a := by
  intro t s'
  have hr : SameRecords { s.jit with mem := w.mem } (reach s.base s.start s.calls) := ⟨h.records.1, h.records.2, h.records.3⟩
  obtain ⟨h1, h2⟩ := alike_step hr (A := fun a => s.base ≤ a ∧ a < s.base + 2 * PAGE_SIZE) (fun a ha => h.bytes a ha.1 ha.2) op
  have e : (op.run (reach s.base s.start s.calls)).state = reach s.base s.start (s.calls ++ [op]) := by
    rw [reach_append]; rfl
  rw [e] at h1 h2
  have hb : s'.base = s.base := by
    show (t.pages 0).contents = s.base
    rw [h1.pages]
    have := (inv_reach s.base s.start (s.calls ++ [op])).contents 0
    rw [this]; omega
  refine ⟨hb, ?_, ?_⟩
  · have g : ∀ {x}, x = s.base → SameRecords s'.jit (reach x s'.start s'.calls) ∧
        ∀ a, x ≤ a → a < x + 2 * PAGE_SIZE → t.mem a = (reach x s'.start s'.calls).mem a := by
      rintro _ rfl
      exact ⟨h1, fun a h3 h4 => h2 a ⟨h3, h4⟩⟩
    obtain ⟨g1, g2⟩ := g hb
    exact ⟨hb ▸ h.alloc, hb ▸ h.block, hb ▸ h.code, hb ▸ h.data, g1, g2⟩
  · intro a ha
    have hi : Inv s.base { s.jit with mem := w.mem } := hr.symm.inv (inv_reach _ _ _)
    exact owns_op hi ha fun h1 h2 => ha (hp h1 _ h2)

/-- One step of the process. -/
theorem world_step {v v' : World} (h : v.Good) (hs : World.Step v v') : v'.Good := by
  obtain ⟨h1, h2, h3⟩ := h
  cases hs with
  | @create j sys hc =>
    obtain ⟨g1, g2, g3⟩ := create_spec h1 hc
    obtain ⟨x, f1, f2, f3, f4, f5, f6⟩ := g3 j rfl
    subst f2
    refine ⟨g1, fun s hs => ?_, List.pairwise_append.mpr ⟨h3, List.pairwise_singleton _ _, fun s hs t ht => ?_⟩⟩
    · rcases List.mem_append.mp hs with hs | hs
      · exact slot_spared (h2 s hs) g2
      · cases List.mem_singleton.mp hs
        have hb : Slot.base ⟨JitMemory.new x sys.mem, (JitMemory.new x sys.mem).mem, [], false⟩ = x := rfl
        exact ⟨f1, by rw [hb, f3]; exact .head _, f5, f6, .refl _, fun a _ _ => rfl⟩
    · cases List.mem_singleton.mp ht
      have := f4 _ (h2 s hs).block
      simp only [Slot.Apart]
      show s.base + _ ≤ x ∨ x + _ ≤ s.base
      simp only at this
      omega
  | panic hc =>
    obtain ⟨g1, g2, -⟩ := create_spec h1 hc
    exact ⟨g1, fun s hs => slot_spared (h2 s hs) g2, h3⟩
  | @call k s op hk hd hp =>
    have hm := List.mem_of_getElem? hk
    obtain ⟨g1, g2, g3⟩ := slot_call (h2 s hm) op hp
    have hkl : k < v.slots.length := (List.getElem?_eq_some_iff.mp hk).1
    have hks : v.slots[k] = s := (List.getElem?_eq_some_iff.mp hk).2
    have hap := List.pairwise_iff_getElem.mp h3
    refine ⟨⟨h1.null, h1.apart⟩, fun t ht => ?_, List.pairwise_iff_getElem.mpr fun i j hi hj hij => ?_⟩
    · obtain ⟨i, hi, rfl⟩ := List.getElem_of_mem ht
      rw [List.length_set] at hi
      rw [List.getElem_set]
      split
      · exact g2
      · rename_i hne
        have hg := h2 _ (List.getElem_mem hi)
        refine slot_other hg hg.block fun a ha => ⟨rfl, fun _ => g3 a fun hs => ?_⟩
        have : Slot.Apart v.slots[i] s ∨ Slot.Apart s v.slots[i] := by
          rw [← hks]
          rcases Nat.lt_or_gt_of_ne hne with h | h
          · exact .inr (hap k i hkl hi h)
          · exact .inl (hap i k hi hkl h)
        simp only [Slot.Apart, Owns] at *
        omega
    · rw [List.length_set] at hi hj
      have := hap i j hi hj hij
      rw [List.getElem_set, List.getElem_set]
      split <;> split
      · omega
      · subst i; rw [hks] at this; simp only [Slot.Apart, g1] at *; exact this
      · subst j; rw [hks] at this; simp only [Slot.Apart, g1] at *; exact this
      · exact this
  | @drop k s hk =>
    have hm := List.mem_of_getElem? hk
    have hks : ∀ h, v.slots[k]'h = s := fun h => (List.getElem?_eq_some_iff.mp hk).2
    have hap := List.pairwise_iff_getElem.mp h3
    refine ⟨h1, fun t ht => ?_, List.pairwise_iff_getElem.mpr fun i j hi hj hij => ?_⟩
    · rcases List.mem_or_eq_of_mem_set ht with ht | rfl
      · exact h2 t ht
      · exact ⟨(h2 s hm).alloc, (h2 s hm).block, (h2 s hm).code, (h2 s hm).data, (h2 s hm).records, (h2 s hm).bytes⟩
    · rw [List.length_set] at hi hj
      have := hap i j hi hj hij
      rw [List.getElem_set, List.getElem_set]
      split <;> split
      · omega
      · subst i; rw [hks] at this; exact this
      · subst j; rw [hks] at this; exact this
      · exact this
  | other hs h => exact ⟨hs, fun s hs => slot_other (h2 s hs) (h s hs).1 (h s hs).2, h3⟩

/-- Numbers below `n` without repetition. -/
theorem nodup_length : ∀ (n : Nat) (l : List Nat), l.Nodup → (∀ x ∈ l, x < n) → l.length ≤ n
  | 0, l, _, h => by
    cases l with
    | nil => exact Nat.le_refl _
    | cons x l => exact absurd (h x (.head _)) (Nat.not_lt_zero _)
  | n + 1, l, hd, h => by
    have h1 := nodup_length n (l.erase n) (hd.erase n) fun x hx => by
      have h2 := h x (List.mem_of_mem_erase hx)
      have h3 : x ≠ n := fun e => by subst e; exact (hd.not_mem_erase hx)
      omega
    have := List.length_erase (a := n) (l := l)
    split at this <;> omega

/-- Disjoint blocks of the same size below `n`. -/
theorem apart_length {k n : Nat} (hk : 0 < k) {l : List Nat} (ha : l.Pairwise fun x y => x + k ≤ y ∨ y + k ≤ x) (hn : ∀ x ∈ l, x + k ≤ n) :
    l.length * k ≤ n := by
  have h1 : (l.map (· / k)).Nodup := by
    refine List.pairwise_map.mpr (ha.imp fun {x y} h e => ?_)
    have hx := Nat.div_add_mod x k
    have hy := Nat.div_add_mod y k
    have hx' := Nat.mod_lt x hk
    have hy' := Nat.mod_lt y hk
    rw [← e] at hy
    omega
  have h2 := nodup_length (n / k) _ h1 fun q hq => by
    obtain ⟨x, hx, rfl⟩ := List.mem_map.mp hq
    have := hn x hx
    have h3 : (x + k) / k ≤ n / k := Nat.div_le_div_right this
    rw [Nat.add_div_right _ hk] at h3
    omega
  rw [List.length_map] at h2
  exact Nat.le_trans (Nat.mul_le_mul_right k h2) (Nat.div_mul_le_self n k)

end Monoasm
