import Verif.Reuse.Spec

namespace Verif.Reuse

variable {D P A E : Type}

theorem Draws.unique {S : Sem P A E} {s : State D P A} {t : Tree} {c : Ctx P E} {l m : List (D × Ctx P E)}
    (h : Draws S s t c l) (h' : Draws S s t c m) : l = m := by
  revert m
  refine Draws.rec (motive_1 := fun t c l _ => ∀ {m}, Draws S s t c m → l = m)
    (motive_2 := fun t c l _ => ∀ {m}, DrawsAll S s t c m → l = m)
    ?_ ?_ ?_ ?_ ?_ ?_ ?_ ?_ ?_ ?_ h
  · intro h ks c d hk hd m h'
    cases h' <;> simp_all
  · intro h ks c hk hd m h'
    cases h' <;> simp_all
  · intro h ks c l i t hk hp ht _ ih m h'
    cases h' with
    | use i' t' hk' hp' ht' hd' =>
      rw [hp] at hp'
      cases hp'
      rw [ht] at ht'
      cases ht'
      exact ih hd'
    | noUse hk' hn =>
      have := hn i hp
      rw [ht] at this
      cases this
    | _ => simp_all
  · intro h ks c hk hn m h'
    cases h' with
    | use i' t' hk' hp' ht' hd' =>
      have := hn i' hp'
      rw [ht'] at this
      cases this
    | _ => simp_all
  · intro h ks c hk m h'
    cases h' <;> simp_all
  · intro h ks c hk m h'
    cases h' <;> simp_all
  · intro h ks c l hk _ ih m h'
    cases h' with
    | svg hk' hd' => exact ih hd'
    | _ => simp_all
  · intro h ks c l hk _ ih m h'
    cases h' with
    | group hk' hd' => exact ih hd'
    | _ => simp_all
  · intro c m h'
    cases h'; rfl
  · intro t ts c l m _ _ ih1 ih2 m' h'
    cases h' with
    | cons h1 h2 => rw [ih1 h1, ih2 h2]

end Verif.Reuse
