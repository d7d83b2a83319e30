import Verif.Lemmas.NnlsKkt
import Verif.Lemmas.NnlsFloat
/-
With one column the solver does not give up.
-/

namespace JKD.Nnls

theorem secondary_one {m : Nat} {s s0 : St ℝ} (hs : Shape m 1 s) (hJ : InvJ m 1 s0 s) (hp : s.nsetp = 1)
    (hx : s.x 1 = 0) (hi : s.iter = 0) (hm : s.mode = 1) (fuel : Nat) :
    ∃ t, secondary exact m 1 (fuel + 1) s = .ok t ∧ t.mode = 1 ∧ t.iz1 = s.iz1 := by
  have hidx : s.index 1 = 1 := by
    have := hs.rng 1 (le_refl _) (le_refl _)
    omega
  have hz : 0 < s.zz 1 := by
    rcases hJ.pos 1 (le_refl _) (by omega) with h | h
    · rw [hidx, hx] at h
      exact absurd h (lt_irrefl _)
    · exact h
  have hst : stepLength exact { s with iter := s.iter + 1 } = (exact.two, none) := by
    unfold stepLength
    simp only [hp]
    change (if exact.le (s.zz 1) exact.zero = true then _ else _) = _
    rw [if_neg (by simpa using hz)]
    rfl
  unfold secondary
  simp only
  rw [if_neg (by omega), if_pos ⟨hs.le_m, colsOk_of hs (Nat.le_refl _) hs.le_n⟩, hst]
  obtain ⟨x, hx⟩ := copyX_fields { s with iter := s.iter + 1 } s.nsetp
  rw [if_pos (by simp), hx]
  exact ⟨_, rfl, hm, rfl⟩

/-- With a single column success is reported. -/
theorem one_column (m : Nat) (hm : 1 ≤ m) (s : St ℝ) (rnorm : ℝ) :
    ∃ r, call exact m 1 s rnorm = .ok r ∧ r.mode = 1 := by
  have hst := start_eq exact 1 s (le_refl _)
  have hs := start_shape exact m 1 s (le_refl _)
  have hI := start_inv m 1 (le_refl _) s
  have f1 : (start exact 1 s).iz1 = 1 := by rw [hst]
  have f2 : (start exact 1 s).nsetp = 0 := by rw [hst]
  have f3 : (start exact 1 s).iter = 0 := by rw [hst]
  have f4 : (start exact 1 s).mode = 1 := by rw [hst]
  have f5 : (start exact 1 s).x 1 = 0 := by rw [hst]; simp
  have f6 : (start exact 1 s).npp1 = 1 := by rw [hst]
  generalize hg : start exact 1 s = u at *
  suffices h : ∃ t, main exact m 1 (3 * 1 + 2) u = .ok t ∧ t.mode = 1 by
    obtain ⟨t, e1, e2⟩ := h
    refine ⟨finish exact m 1 t, ?_, ?_⟩
    · unfold call nnls
      rw [if_neg (by omega)]
      change (main exact m 1 (3 * 1 + 2) (start exact 1 s)).bind _ = _
      rw [hg, e1]
      rfl
    · rw [(finish_fields m 1 t).2.1, e2]
  unfold main
  rw [if_neg (by omega), if_pos ⟨colsOk_of hs (by omega) (Nat.le_refl _), by omega⟩]
  have hd : Shape m 1 (dual exact m 1 u) ∧ (dual exact m 1 u).iter = u.iter ∧ (dual exact m 1 u).mode = u.mode ∧
      (dual exact m 1 u).nsetp = u.nsetp ∧ (dual exact m 1 u).x = u.x := by
    rw [dual_eq exact m 1 u (by omega) (by omega)]
    exact ⟨hs.congr rfl rfl rfl rfl, rfl, rfl, rfl, rfl⟩
  obtain ⟨hd1, hd2, hd3, hd4, hd5⟩ := hd
  have hpos := positives_le exact 1 (dual exact m 1 u) (by rw [hd1.iz1]; omega)
  rcases select_total exact_ordered (1 + 1) (dual exact m 1 u) hd1 (by omega) (by omega) with
    ⟨t, e1, e2, e3, e4⟩ | ⟨t, iz, e1, e2, e3, e4, e5, e6, e7⟩
  · rw [e1]
    exact ⟨t, rfl, by rw [e4, hd3, f4]⟩
  · rw [e1]
    simp only [Out.bind]
    have hiz2 := e2.iz1
    rw [if_pos ⟨by omega, e6⟩]
    have hJ := taken_exact hs hI (by omega) (by omega) e1
    have hsh := accept_shape exact e2 (by omega) e6 e7
    rw [if_pos ⟨colsOk_of hsh (Nat.le_refl _) hsh.le_n, hsh.le_m⟩]
    have hnp := e2.npp1
    have hacc : (accept exact m 1 t iz (t.index iz)).iter = t.iter ∧
        (accept exact m 1 t iz (t.index iz)).mode = t.mode ∧ (accept exact m 1 t iz (t.index iz)).x = t.x ∧
        (accept exact m 1 t iz (t.index iz)).nsetp = t.npp1 ∧
        (accept exact m 1 t iz (t.index iz)).iz1 = t.iz1 + 1 := by
      obtain ⟨a1, a2, a3, a4⟩ := accept_cond e2 e6 e7 _ rfl
      rw [accept_eq exact m 1 t iz _ _ rfl (by omega) (by omega) a4
        (fun q r b c d => a2 q r (by omega) c d)]
      exact ⟨rfl, rfl, rfl, rfl, rfl⟩
    obtain ⟨g1, g2, g3, g4, g5⟩ := hacc
    obtain ⟨b1, -⟩ := select_taken exact m 1 _ _ _ _ _ e1
    obtain ⟨v, k1, k2, k3⟩ := secondary_one (s0 := s) (solve_shape exact hsh) hJ (by
      change (accept exact m 1 t iz (t.index iz)).nsetp = 1
      omega) (by
      change (accept exact m 1 t iz (t.index iz)).x 1 = 0
      rw [g3, b1, hd5, f5]) (by
      change (accept exact m 1 t iz (t.index iz)).iter = 0
      omega) (by
      change (accept exact m 1 t iz (t.index iz)).mode = 1
      rw [g2, e4, hd3, f4]) 4
    rw [g1, e3, hd2, f3]
    rw [show 3 * 1 + 2 - 0 = 4 + 1 from rfl, k1]
    simp only
    rw [if_neg (by omega)]
    unfold main
    have k3' : v.iz1 = (accept exact m 1 t iz (t.index iz)).iz1 := k3
    rw [if_pos (by omega)]
    exact ⟨v, rfl, k2⟩

end JKD.Nnls
