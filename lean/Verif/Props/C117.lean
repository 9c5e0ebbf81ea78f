import Verif.Model.Materials
import Verif.Props.C113
import Verif.Props.C52_54

/- C117: the built-in materials, told apart by their X0 in single precision. -/
namespace Tomopt

noncomputable section
open Floats Loss

namespace C117

/-- every material has a name of its own, every density belongs to a material with an X0, and all values are positive -/
theorem tables : (x0Table.map (·.1)).Nodup ∧ (densityTable.map (·.1)).Nodup ∧ (∀ e ∈ densityTable, e.1 ∈ x0Table.map (·.1)) ∧ (∀ e ∈ x0Table, 0 < e.2) ∧ ∀ e ∈ densityTable, 0 < e.2 := by
  decide +kernel

/-- different X0 values differ by more than half a percent -/
theorem apart : ∀ e ∈ x0Table, ∀ e' ∈ x0Table, e.2 ≠ e'.2 → e.2 / 200 ≤ |e.2 - e'.2| := by decide +kernel

/-- no X0 value is within a tenth of a percent of an integer -/
theorem between : ∀ e ∈ x0Table, (⌊e.2⌋ : ℚ) < e.2 * (1 - 1 / 10000) ∧ e.2 * (1 + 1 / 10000) < ⌊e.2⌋ + 1 := by decide +kernel

/-- a class whose key is closer to the target than all others is the target's class -/
theorem closest (tab : List (ℝ × Int)) (hd : (tab.map (·.1)).Nodup) (e : ℝ × Int) (he : e ∈ tab) (t : ℝ) (h : ∀ e' ∈ tab, e'.1 ≠ e.1 → |e.1 - t| < |e'.1 - t|) : C54.cls tab t = e.2 := by
  cases tab with
  | nil => simp at he
  | cons f fs =>
    obtain ⟨h1, h2⟩ := C54.nearest_spec t f fs
    have h3 := h2 e he
    have h4 : (nearest t f fs).1 = e.1 := by
      by_contra hne
      exact absurd h3 (not_le.mpr (h _ h1 hne))
    have h5 : nearest t f fs = e := List.inj_on_of_nodup_map hd h1 he h4
    show (nearest t f fs).2 = e.2
    rw [h5]

/-- what rounding to double and then to single precision does to a positive number -/
theorem twice (fl fl64 : ℝ → ℝ) (hf : Nearest 24 fl) (h64 : Nearest 53 fl64) (x : ℝ) (hx : 0 < x) : |fl64 x - x| ≤ x / 10000000 ∧ |fl (fl64 x) - x| ≤ x / 1000000 := by
  have a := nearest_rel 53 53 (by norm_num) (le_refl _) fl64 h64 x
  have b := nearest_rel 24 24 (by norm_num) (le_refl _) fl hf (fl64 x)
  rw [abs_of_pos hx] at a
  have a' : |fl64 x - x| ≤ x / 10000000 := by
    refine le_trans a ?_
    have : (1 : ℝ) / 2 ^ 53 ≤ 1 / 10000000 := by norm_num
    have := mul_le_mul_of_nonneg_right this hx.le
    linarith
  have a'' := abs_le.mp a'
  have c : |fl64 x| ≤ 2 * x := by rw [abs_le]; constructor <;> linarith [a''.1, a''.2]
  have b' : |fl (fl64 x) - fl64 x| ≤ x / 2000000 := by
    refine le_trans b (le_trans (mul_le_mul_of_nonneg_left c (by positivity)) ?_)
    have : (1 : ℝ) / 2 ^ 24 * 2 ≤ 1 / 2000000 := by norm_num
    have := mul_le_mul_of_nonneg_right this hx.le
    linarith
  refine ⟨a', ?_⟩
  have b'' := abs_le.mp b'
  rw [abs_le]
  constructor <;> linarith [a''.1, a''.2, b''.1, b''.2]

/-- **C117.** Classes are given to any of the built-in materials, the keys being their X0 values in double precision. A volume is filled with these materials, the X0 values in single precision. Then every X0 is
converted to the class of its own material, both by the conversion function and by the class losses, which overwrite their targets one material after the other. -/
theorem rounded (fl fl64 : ℝ → ℝ) (hf : Nearest 24 fl) (h64 : Nearest 53 fl64) (cs ts : List ((String × ℚ) × Int)) (hc : ∀ c ∈ cs, c.1 ∈ x0Table) (hd : (cs.map (·.1)).Nodup) (h0 : cs ≠ []) (ht : ∀ t ∈ ts, t ∈ cs) :
    classTargs (cs.map fun c => (fl64 c.1.2, c.2)) (ts.map fun t => fl (fl64 t.1.2)) = .ok (ts.map fun t => (t.2 : ℝ)) ∧
      relabel (cs.map fun c => (fl64 c.1.2, c.2)) (ts.map fun t => fl (fl64 t.1.2)) = .ok (ts.map fun t => (t.2 : ℝ)) := by
  have vals : (x0Table.map (·.2)).Nodup := by decide +kernel
  have pos : ∀ c ∈ cs, (0 : ℝ) < (c.1.2 : ℝ) := fun c h => by exact_mod_cast tables.2.2.2.1 _ (hc c h)
  have gap : ∀ c ∈ cs, ∀ d ∈ cs, c.1 ≠ d.1 → (c.1.2 : ℝ) / 200 ≤ |(c.1.2 : ℝ) - (d.1.2 : ℝ)| := by
    intro c h d h' hne
    have hv : c.1.2 ≠ d.1.2 := fun e => hne (List.inj_on_of_nodup_map vals (hc c h) (hc d h') e)
    have := apart c.1 (hc c h) d.1 (hc d h') hv
    have h2 : ((c.1.2 / 200 : ℚ) : ℝ) ≤ ((|c.1.2 - d.1.2| : ℚ) : ℝ) := by exact_mod_cast this
    push_cast at h2
    exact h2
  have inj : ∀ c ∈ cs, ∀ d ∈ cs, fl64 c.1.2 = fl64 d.1.2 → c = d := by
    intro c h d h' e
    by_contra hne
    have hne1 : c.1 ≠ d.1 := fun e1 => hne (List.inj_on_of_nodup_map hd h h' e1)
    have g1 := gap c h d h' hne1
    have g2 := gap d h' c h (Ne.symm hne1)
    rw [abs_sub_comm] at g2
    have a := abs_le.mp (twice fl fl64 hf h64 _ (pos c h)).1
    have b := abs_le.mp (twice fl fl64 hf h64 _ (pos d h')).1
    rw [e] at a
    have : |(c.1.2 : ℝ) - (d.1.2 : ℝ)| ≤ (c.1.2 : ℝ) / 10000000 + (d.1.2 : ℝ) / 10000000 := by
      rw [abs_le]
      constructor <;> linarith [a.1, a.2, b.1, b.2]
    linarith [pos c h, pos d h']
  have keys : ((cs.map fun c => (fl64 c.1.2, c.2)).map (·.1)).Nodup := by
    rw [List.map_map]
    refine List.Nodup.map_on ?_ (List.Nodup.of_map _ hd)
    intro c h d h' e
    exact inj c h d h' e
  have own : ∀ t ∈ ts, C54.cls (cs.map fun c => (fl64 c.1.2, c.2)) (fl (fl64 t.1.2)) = t.2 := by
    intro t h
    have hm : (fl64 t.1.2, t.2) ∈ cs.map fun c => (fl64 c.1.2, c.2) := List.mem_map.mpr ⟨t, ht t h, rfl⟩
    refine closest _ keys (fl64 t.1.2, t.2) hm _ ?_
    intro e' he' hne
    obtain ⟨d, hd', rfl⟩ := List.mem_map.mp he'
    have hne1 : t.1 ≠ d.1 := fun e1 => hne (by simp only [e1])
    have g1 := gap t (ht t h) d hd' hne1
    have g2 := gap d hd' t (ht t h) (Ne.symm hne1)
    rw [abs_sub_comm] at g2
    have px := pos t (ht t h)
    have py := pos d hd'
    have a1 := abs_le.mp (twice fl fl64 hf h64 _ px).1
    have a2 := abs_le.mp (twice fl fl64 hf h64 _ px).2
    have b := abs_le.mp (twice fl fl64 hf h64 _ py).1
    show |fl64 (t.1.2 : ℝ) - fl (fl64 (t.1.2 : ℝ))| < |fl64 (d.1.2 : ℝ) - fl (fl64 (t.1.2 : ℝ))|
    have l1 : |fl64 (t.1.2 : ℝ) - fl (fl64 (t.1.2 : ℝ))| ≤ (t.1.2 : ℝ) / 10000000 + (t.1.2 : ℝ) / 1000000 := by
      rw [abs_le]
      constructor <;> linarith [a1.1, a1.2, a2.1, a2.2]
    have l2 : |(t.1.2 : ℝ) - (d.1.2 : ℝ)| ≤ |fl64 (d.1.2 : ℝ) - fl (fl64 (t.1.2 : ℝ))| + ((d.1.2 : ℝ) / 10000000 + (t.1.2 : ℝ) / 1000000) := by
      have n1 := neg_abs_le (fl64 (d.1.2 : ℝ) - fl (fl64 (t.1.2 : ℝ)))
      have n2 := le_abs_self (fl64 (d.1.2 : ℝ) - fl (fl64 (t.1.2 : ℝ)))
      rw [abs_le]
      constructor <;> linarith [a2.1, a2.2, b.1, b.2]
    linarith
  have hne : (cs.map fun c => (fl64 c.1.2, c.2)) ≠ [] := by simpa using h0
  have e : ((ts.map fun t => fl (fl64 t.1.2)).map fun t => (C54.cls (cs.map fun c => (fl64 c.1.2, c.2)) t : ℝ)) = ts.map fun t => (t.2 : ℝ) := by
    rw [List.map_map]
    exact List.map_congr_left fun t h => by simp only [Function.comp, own t h]
  constructor
  · rw [C54.class_targets _ hne, e]
  · rw [C54.loss_targets_partial _ hne, e]
    intro x hx y hy hlt
    obtain ⟨t, h, rfl⟩ := List.mem_map.mp hx
    obtain ⟨u, hu, rfl⟩ := List.mem_map.mp hy
    rw [own t h]
    intro heq
    have pu := pos u (ht u hu)
    obtain ⟨b1, b2⟩ := between u.1 (hc u (ht u hu))
    have b1' : ((⌊u.1.2⌋ : ℤ) : ℝ) < (u.1.2 : ℝ) * (1 - 1 / 10000) := by
      have := (Rat.cast_lt (K := ℝ)).mpr b1
      push_cast at this
      exact this
    have b2' : (u.1.2 : ℝ) * (1 + 1 / 10000) < ((⌊u.1.2⌋ : ℤ) : ℝ) + 1 := by
      have := (Rat.cast_lt (K := ℝ)).mpr b2
      push_cast at this
      exact this
    have a := abs_le.mp (twice fl fl64 hf h64 _ pu).2
    rw [← heq] at a
    have i1 : ((⌊u.1.2⌋ : ℤ) : ℝ) < (t.2 : ℝ) := by linarith [a.1]
    have i2 : (t.2 : ℝ) < ((⌊u.1.2⌋ + 1 : ℤ) : ℝ) := by push_cast; linarith [a.2]
    have i1' : ⌊u.1.2⌋ < t.2 := by exact_mod_cast i1
    have i2' : t.2 < ⌊u.1.2⌋ + 1 := by exact_mod_cast i2
    omega

/-- Lead and iron as classes 0 and 1. -/
example : ∃ fl fl64, Nearest 24 fl ∧ Nearest 53 fl64 ∧ ∃ cs : List ((String × ℚ) × Int), (∀ c ∈ cs, c.1 ∈ x0Table) ∧ (cs.map (·.1)).Nodup ∧ cs ≠ [] := by
  obtain ⟨fl, hf⟩ := rounding_exists 24 (by norm_num)
  obtain ⟨fl64, h64⟩ := rounding_exists 53 (by norm_num)
  exact ⟨fl, fl64, hf, h64, [(("lead", 0.005612), 0), (("iron", 0.01757), 1)], by decide +kernel, by decide +kernel, by simp⟩

end C117

end

end Tomopt
