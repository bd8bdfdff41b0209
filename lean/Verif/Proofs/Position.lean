import Verif.Spec.Position
import Verif.Proofs.Machine
/-
  Arithmetic of positions.
-/

namespace Monoasm
open Spec

theorem posAdd_ok {p : BitVec 64} {d : BitVec 32} (h1 : -2 ^ 63 ≤ p.toInt + d.toInt) (h2 : p.toInt + d.toInt < 2 ^ 63) (chk t) :
    ∃ q : BitVec 64, Machine.posAdd p d chk t = .ok q t ∧ q.toInt = p.toInt + d.toInt := by
  have e : (d.signExtend 64).toInt = d.toInt := BitVec.toInt_signExtend_of_le (by decide)
  refine ⟨p + d.signExtend 64, ?_, ?_⟩
  · simp only [Machine.posAdd, Machine.addSigned]
    rw [if_neg]
    rw [e]; omega
  · rw [BitVec.toInt_add, e, Int.bmod_eq_of_le] <;> omega

theorem posSub_ok {p q : BitVec 64} {chk} (h : chk = true → q.toNat ≤ p.toNat) (t) :
    Machine.posSub p q chk t = .ok (p - q) t := by
  simp only [Machine.posSub]
  rw [if_neg]
  rintro ⟨h1, h2⟩
  exact absurd (h h1) (by omega)

/-- The cast `as i32` of a difference that fits keeps it. -/
theorem toInt_difference {p q : BitVec 64} (h1 : -2 ^ 31 ≤ p.toInt - q.toInt) (h2 : p.toInt - q.toInt < 2 ^ 31) :
    ((p - q).setWidth 32).toInt = p.toInt - q.toInt := by
  have hk : ∃ k : Int, ((p - q).toNat : Int) = (p.toInt - q.toInt) + (2 ^ 32 : Nat) * k := by
    have hp := p.isLt
    have hq := q.isLt
    rw [BitVec.toNat_sub]
    have a1 := BitVec.toInt_eq_toNat_cond p
    have a2 := BitVec.toInt_eq_toNat_cond q
    refine ⟨(((2 ^ 64 - q.toNat + p.toNat) % 2 ^ 64 : Nat) - (p.toInt - q.toInt)) / 2 ^ 32, ?_⟩
    split at a1 <;> split at a2 <;> omega
  obtain ⟨k, hk⟩ := hk
  rw [BitVec.toInt_setWidth, hk, Int.add_mul_bmod_self_left, Int.bmod_eq_of_le] <;> omega

/-- The machine computes what the expression means. -/
theorem eval_ok {base : Nat} {s : JitMemory} {t chk} (hi : Inv base s) (hr : Represents t s) (e : PosExp) (hm : e.Modest chk s) :
    ∃ q : BitVec 64, e.eval chk t = .ok q t ∧ q.toInt = e.value s := by
  induction e with
  | num n =>
    exact ⟨n, rfl, BitVec.toInt_eq_toNat_of_lt (by have : n.toNat < 2 ^ 63 := hm; omega)⟩
  | current =>
    have hp : t.page < 3 := by rw [← hr.page]; exact Nat.lt_trans hi.page (by decide)
    have e : (s.pages s.page).counter = (t.pages t.page).counter.toNat := by rw [hr.pages _ (by rw [hr.page]; exact hp), hr.page]; rfl
    refine ⟨(t.pages t.page).counter, rfl, ?_⟩
    show _ = ((s.pages s.page).counter : Int)
    have := hi.counter s.page
    rw [PAGE_SIZE_eq] at this
    rw [e, BitVec.toInt_eq_toNat_of_lt (by omega)]
  | add e d ih =>
    obtain ⟨hm, h1, h2⟩ := hm
    obtain ⟨p, hp, hv⟩ := ih hm
    obtain ⟨q, hq, hw⟩ := posAdd_ok (p := p) (d := d) (by rw [hv]; exact h1) (by rw [hv]; exact h2) chk t
    exact ⟨q, (machine_bind hp).trans hq, by rw [hw, hv]; rfl⟩
  | shift e f g ihe ihf ihg =>
    obtain ⟨me, mf, mg, h1, h2, h3, h4, h5⟩ := hm
    obtain ⟨p, hp, hv⟩ := ihe me
    obtain ⟨q, hq, hw⟩ := ihf mf
    obtain ⟨r, hr, hx⟩ := ihg mg
    have hle : chk = true → r.toNat ≤ q.toNat := fun c => by
      obtain ⟨c1, c2⟩ := h5 c
      have a1 := BitVec.toInt_eq_toNat_cond q
      have a2 := BitVec.toInt_eq_toNat_cond r
      have hq := q.isLt
      have hr := r.isLt
      rw [← hx] at c1 c2
      rw [← hw] at c2
      split at a1 <;> split at a2 <;> omega
    rw [← hw, ← hx] at h1 h2 h3 h4
    have hd := toInt_difference h3 h4
    obtain ⟨y, hy, hz⟩ := posAdd_ok (p := p) (d := (q - r).setWidth 32) (by rw [hd, hv]; exact h1) (by rw [hd, hv]; exact h2) chk t
    refine ⟨y, (machine_bind hp).trans ((machine_bind hq).trans ((machine_bind hr).trans ((machine_bind (posSub_ok hle t)).trans hy))), ?_⟩
    rw [hz, hd, hv, hw, hx]; rfl

theorem toNat_onPage {q : BitVec 64} {v : Int} (h : q.toInt = v) : (OnPage v → q.toNat = v.toNat ∧ q.toNat < PAGE_SIZE)
    ∧ (¬ OnPage v → PAGE_SIZE ≤ q.toNat) := by
  have a := BitVec.toInt_eq_toNat_cond q
  have := q.isLt
  subst h
  unfold OnPage
  rw [PAGE_SIZE_eq]
  constructor <;> intro h <;> split at a <;> omega

theorem read_ok {base : Nat} (ha : Alloc base) {s : JitMemory} {t} (hi : Inv base s) (hr : Represents t s) {p} (hp : p < 3)
    {q : BitVec 64} (hq : q.toNat < PAGE_SIZE) (chk) :
    Machine.MemPage.read p q chk t = .ok (s.mem (addrOf base p q.toNat)) t := by
  obtain ⟨a, h1, h2⟩ := address_ok ha hi hr hp (pos := q) (by omega) chk
  rw [Machine.MemPage.read, if_neg (by omega)]
  refine (machine_bind h1).trans ?_
  show Machine.Res.ok (t.mem a) t = _
  rw [hr.mem a, h2, hi.contents]; rfl

theorem write_ok {base : Nat} (ha : Alloc base) {s : JitMemory} {t} (hi : Inv base s) (hr : Represents t s) {p} (hp : p < 3)
    {q : BitVec 64} (hq : q.toNat < PAGE_SIZE) (v : Byte) (chk) :
    ∃ m, Machine.MemPage.write p q v chk t = .ok () { t with mem := m }
      ∧ ∀ a : BitVec 64, m a = if a.toNat = addrOf base p q.toNat then v else t.mem a := by
  obtain ⟨a, h1, h2⟩ := address_ok ha hi hr hp (pos := q) (by omega) chk
  rw [hi.contents] at h2
  rw [Machine.MemPage.write, if_neg (by omega)]
  refine ⟨Machine.upd t.mem a v, (machine_bind h1).trans rfl, fun x => ?_⟩
  rw [Machine.upd, addrOf, ← h2]
  by_cases e : x = a
  · subst e; simp
  · rw [if_neg e, if_neg fun h => e (BitVec.eq_of_toNat_eq h)]

end Monoasm
