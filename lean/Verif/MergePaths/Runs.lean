import Verif.MergePaths.Lemmas

/-!
# The loop as a partition of the children into runs
-/

namespace Verif.MergePaths

open Verif.Segment

variable {V : Type}

/-- `p` is the element `e` as the loop has it: its path data perhaps written in another way. -/
structure Rewritten (e p : El V) : Prop where
  node : p.node = e.node
  path : p.path = e.path
  empty : p.empty = e.empty
  rest : rest p.attrs = rest e.attrs
  has : p.data.isSome ↔ e.data.isSome
  alone : ¬ e.Plain → p = e
  subs : p.subs = e.subs

theorem Rewritten.refl (e : El V) : Rewritten e e := ⟨rfl, rfl, rfl, rfl, Iff.rfl, fun _ => rfl, rfl⟩

theorem data_set (e : El V) (c : List Cmd) : El.data { e with attrs := setData c e.attrs } = some c := by
  rw [← dataOf_eq]; exact dataOf_setData c e.attrs

theorem rewritten_absolute {e : El V} {c : List Cmd} (h : e.Plain) (hd : e.data = some c) :
    Rewritten e { e with attrs := setData (absolute c) e.attrs } where
  node := rfl
  path := rfl
  empty := rfl
  rest := rest_setData ..
  has := by rw [data_set, hd]; exact Iff.rfl
  alone := fun n => absurd h n
  subs := by simp [El.subs, data_set, hd, drawn_absolute]

theorem plain_of {e p : El V} (h : Rewritten e p) : p.Plain ↔ e.Plain := by
  simp [El.Plain, h.path, h.empty]

theorem noId_of {e p : El V} (h : Rewritten e p) : p.NoId ↔ e.NoId := by
  have key : ∀ x : El V, x.NoId ↔ ∀ v, ("id", v) ∉ rest x.attrs := fun x =>
    forall_congr' fun v => not_congr mem_rest.symm
  rw [key, key, h.rest]

/-- What the loop knows about the paths collected: `l` is the run, `p` its last element as it is now. -/
structure Inv (force : Bool) (intersects : List Cmd → List Cmd → Bool) (style : El V → Except String Style)
    (l : List (El V)) (e p : El V) (pending : Option (List Cmd)) : Prop where
  last : ∃ l', l = l' ++ [e]
  rew : Rewritten e p
  proper : p.Proper
  pend : match pending with
    | none => l = [e]
    | some c => drawn c = subsAll l ∧ Valid c ∧ p.data.isSome ∧ p.Plain
  pairs : ∀ l' e' r, l = l' ++ e' :: r → l' ≠ [] → Follows force intersects style l' e'

variable {force : Bool} {intersects : List Cmd → List Cmd → Bool} {style : El V → Except String Style}

theorem Inv.getLast {l : List (El V)} {e p : El V} {o : Option (List Cmd)} (h : Inv force intersects style l e p o) :
    l.getLast? = some e := by
  obtain ⟨l', rfl⟩ := h.last
  simp

theorem joined_flush {l : List (El V)} {e p : El V} {o : Option (List Cmd)}
    (h : Inv force intersects style l e p o) : Joined force intersects style l (flush o p) := by
  cases o with
  | none =>
    have hl : l = [e] := h.pend
    exact ⟨⟨e, h.getLast, h.rew.node, h.rew.path, h.rew.empty, h.rew.rest, h.rew.has, h.rew.alone⟩,
      by rw [hl]; simp [subsAll, flush, h.rew.subs], h.pairs⟩
  | some c =>
    obtain ⟨hc, _, hd, hp⟩ := h.pend
    refine ⟨⟨e, h.getLast, h.rew.node, h.rew.path, h.rew.empty, ?_, ?_, ?_⟩, ?_, h.pairs⟩
    · exact (rest_setData ..).trans h.rew.rest
    · rw [flush, data_set, ← h.rew.has, hd]; exact Iff.rfl
    · exact fun n => absurd ((plain_of h.rew).1 hp) n
    · simp [El.subs, flush, data_set, hc]

theorem inv_start {e p : El V} (hr : Rewritten e p) (hp : p.Proper) :
    Inv force intersects style [e] e p none where
  last := ⟨[], rfl⟩
  rew := hr
  proper := hp
  pend := rfl
  pairs := by
    intro l' e' r h hn
    cases l' with
    | nil => exact absurd rfl hn
    | cons a l' => simp at h

/-- The children are cut into runs, the first of which begins with `l`. -/
def Cut (force : Bool) (intersects : List Cmd → List Cmd → Bool) (style : El V → Except String Style)
    (l rest out : List (El V)) : Prop :=
  ∃ m rs, l ++ rest = ((l ++ m) :: rs).flatten ∧ List.Forall₂ (Joined force intersects style) ((l ++ m) :: rs) out ∧
    Stops force intersects style ((l ++ m) :: rs) ∧ ∀ r ∈ rs, r ≠ []

theorem cut_stop {l : List (El V)} {e p child : El V} {o : Option (List Cmd)} {rest out : List (El V)} {f : El V}
    (hj : Joined force intersects style l f) (hs : Stop force intersects style l child)
    (hc : Cut force intersects style [child] rest out) :
    Cut force intersects style l (child :: rest) (f :: out) := by
  obtain ⟨m, rs, h1, h2, h3, h4⟩ := hc
  refine ⟨[], ([child] ++ m) :: rs, ?_, ?_, ?_, ?_⟩
  · have : child :: rest = (([child] ++ m) :: rs).flatten := h1
    rw [this]; simp
  · rw [List.append_nil]; exact .cons hj h2
  · rw [List.append_nil]
    refine ⟨fun e he => ?_, h3⟩
    have : child = e := by simpa using he
    rw [← this]; exact hs
  · intro r hr
    rcases List.mem_cons.1 hr with rfl | hr
    · simp
    · exact h4 r hr

theorem map_ok {ε α β : Type} {x : Except ε α} {f : α → β} {b : β} (h : x.map f = .ok b) : ∃ a, x = .ok a ∧ f a = b := by
  cases x with
  | error e => exact nomatch h
  | ok a => exact ⟨a, rfl, Except.ok.inj h⟩

theorem subsAll_append (a b : List (El V)) : subsAll (a ++ b) = subsAll a ++ subsAll b := by
  simp [subsAll]

theorem subs_data {e : El V} {c : List Cmd} (h : e.data = some c) : e.subs = drawn c := by
  simp [El.subs, h]

theorem valid_data {e : El V} {c : List Cmd} (h : e.Proper) (hd : e.data = some c) : Valid c := by
  rw [← dataOf_eq] at hd
  exact h.2 c (dataOf_mem hd)

theorem loop_cut [DecidableEq V] {rest : List (El V)} : ∀ {l : List (El V)} {e p : El V} {o : Option (List Cmd)}
    {out : List (El V)}, Inv force intersects style l e p o → (∀ x ∈ rest, x.Proper) →
    loop force intersects style p o rest = .ok out → Cut force intersects style l rest out := by
  induction rest with
  | nil =>
    intro l e p o out inv _ h
    have : out = [flush o p] := (Except.ok.inj h).symm
    subst this
    exact ⟨[], [], by simp, by rw [List.append_nil]; exact .cons (joined_flush inv) .nil, trivial, by simp⟩
  | cons child rest ih =>
    intro l e p o out inv hp h
    have hpc : child.Proper := hp child List.mem_cons_self
    have hpr : ∀ x ∈ rest, x.Proper := fun x m => hp x (List.mem_cons_of_mem _ m)
    have hlast := inv.getLast
    -- stopping, with the child as it is
    have stopWith : ∀ {q : El V} {f : El V} {out : List (El V)}, Joined force intersects style l f →
        Stop force intersects style l child → Rewritten child q → q.Proper →
        (loop force intersects style q none rest).map (f :: ·) = .ok out →
        Cut force intersects style l (child :: rest) out := by
      intro q f out hj hs hr hq h
      obtain ⟨out', h', rfl⟩ := map_ok h
      exact cut_stop (e := e) (p := p) (o := o) hj hs (ih (inv_start hr hq) hpr h')
    unfold loop at h
    split at h
    · next hb =>
      refine stopWith (joined_flush inv) ⟨e, hlast, ?_⟩ (Rewritten.refl child) hpc h
      simp only [Bool.or_eq_true, Bool.not_eq_true'] at hb
      rcases hb with (hb | hb) | hb
      · exact .inl fun hc => by have := ((plain_of inv.rew).2 hc).1; simp [hb] at this
      · exact .inl fun hc => by have := ((plain_of inv.rew).2 hc).2; simp [hb] at this
      · refine .inr (.inl fun hc => ?_)
        have := (noId_iff p).2 ((noId_of inv.rew).2 hc)
        simp [hb] at this
    · next hb =>
      simp only [Bool.or_eq_true, Bool.not_eq_true', not_or, Bool.not_eq_false] at hb
      obtain ⟨⟨hb1, hb2⟩, hb3⟩ := hb
      have plainP : p.Plain := ⟨hb1, hb2⟩
      have plainE : e.Plain := (plain_of inv.rew).1 plainP
      have noIdE : e.NoId := (noId_of inv.rew).1 ((noId_iff p).1 (by simpa using hb3))
      split at h
      · next hb =>
        refine stopWith (joined_flush inv) ⟨e, hlast, ?_⟩ (Rewritten.refl child) hpc h
        simp only [Bool.or_eq_true, Bool.not_eq_true'] at hb
        refine .inr (.inr (.inr (.inr (.inl fun hc => ?_))))
        rcases hb with hb | hb
        · have := hc.1; simp [hb] at this
        · have := hc.2; simp [hb] at this
      · next hb =>
        simp only [Bool.or_eq_true, Bool.not_eq_true', not_or, Bool.not_eq_false] at hb
        have plainC : child.Plain := hb
        split at h
        · exact nomatch h
        · next s hs =>
          split at h
          · next hd =>
            rw [dataOf_eq] at hd
            exact stopWith (joined_flush inv) ⟨e, hlast, .inr (.inr (.inr (.inr (.inr (.inl hd)))))⟩
              (Rewritten.refl child) hpc h
          · next c hd =>
            rw [dataOf_eq] at hd
            have hvc := valid_data hpc hd
            have hrew := rewritten_absolute plainC hd
            have hva : Valid (absolute c) := by
              rcases absolute_valid hvc with e | ⟨q, cs, e⟩
              · exact .inl e
              · exact .inr ⟨q, cs, .inl e⟩
            have hprop : El.Proper { child with attrs := setData (absolute c) child.attrs } :=
              proper_set hpc (by simp [hd]) hva
            dsimp only at h
            split at h
            · next hbl =>
              refine stopWith (joined_flush inv) ⟨e, hlast, ?_⟩ hrew hprop h
              refine .inr (.inr (.inr (.inr (.inr (.inr (.inl ⟨s, hs, fun hf => ?_⟩))))))
              rw [(blocks_iff s).2 hf] at hbl
              exact nomatch hbl
            · next hbl =>
              have hfree : s.Free := (blocks_iff s).1 (by simpa using hbl)
              split at h
              · next hsa =>
                refine stopWith (joined_flush inv) ⟨e, hlast, ?_⟩ hrew hprop h
                by_cases hed : e.data = none
                · exact .inr (.inr (.inl hed))
                refine .inr (.inr (.inr (.inl fun hperm => ?_)))
                have hpd : p.data.isSome := inv.rew.has.2 (Option.isSome_iff_ne_none.2 hed)
                have := (sameAttrs_iff (V := V) inv.proper.1 hprop.1 (by rw [dataOf_eq]; exact hpd)
                  (by rw [dataOf_setData]; rfl)).2 (by rw [inv.rew.rest, hrew.rest]; exact hperm)
                simp only [this, Bool.not_true] at hsa
                exact nomatch hsa
              · next hsa =>
                have hsa' : sameAttrs p.attrs (setData (absolute c) child.attrs) = true := by simpa using hsa
                have hperm : p.data.isSome → (Verif.MergePaths.rest e.attrs).Perm (Verif.MergePaths.rest child.attrs) := by
                  intro hpd
                  have := (sameAttrs_iff (V := V) inv.proper.1 hprop.1 (by rw [dataOf_eq]; exact hpd)
                    (by rw [dataOf_setData]; rfl)).1 hsa'
                  rwa [inv.rew.rest, hrew.rest] at this
                have hsubsC : drawn (absolute c) = child.subs := by rw [drawn_absolute, subs_data hd]
                -- the commands collected, or those of the child before
                have known : ∀ {b : List Cmd}, collected o p = some b →
                    drawn b = subsAll l ∧ Valid b ∧ p.data.isSome := by
                  intro b hb
                  cases o with
                  | some b' =>
                    obtain rfl : b' = b := Option.some.inj hb
                    obtain ⟨x1, x2, x3, _⟩ := inv.pend
                    exact ⟨x1, x2, x3⟩
                  | none =>
                    have hb' : p.data = some b := by rw [← dataOf_eq]; exact hb
                    have hl : l = [e] := inv.pend
                    refine ⟨?_, valid_data inv.proper hb', by simp [hb']⟩
                    rw [hl]
                    simp only [subsAll, List.flatMap_cons, List.flatMap_nil, List.append_nil]
                    rw [← inv.rew.subs, subs_data hb']
                split at h
                · next c' hdec =>
                  -- merge
                  unfold decide' at hdec
                  split at hdec
                  · exact nomatch hdec
                  · next b hb =>
                    obtain ⟨hdb, hvb, hpd⟩ := known hb
                    split at hdec
                    · next hi =>
                      obtain rfl : popMove b ++ absolute c = c' := Decision.merge.inj hdec
                      obtain ⟨hdm, hvm⟩ := drawn_merge hvb hvc
                      have hfol : Follows force intersects style l child := by
                        refine ⟨⟨e, hlast, plainE, noIdE, inv.rew.has.1 hpd, hperm hpd⟩, plainC, by simp [hd],
                          ⟨s, hs, hfree⟩, ?_⟩
                        rcases Bool.or_eq_true _ _ |>.mp hi with hi | hi
                        · exact .inl hi
                        · exact .inr ⟨popMove b, absolute c, by rw [drawn_popMove, hdb], hsubsC, by simpa using hi⟩
                      have inv' : Inv force intersects style (l ++ [child]) child
                          { child with attrs := setData (absolute c) child.attrs } (some (popMove b ++ absolute c)) := by
                        refine ⟨⟨l, rfl⟩, hrew, hprop, ?_, ?_⟩
                        · refine ⟨?_, hvm, by simp [data_set], (plain_of hrew).2 plainC⟩
                          rw [hdm, hdb, subsAll_append, ← drawn_absolute c, hsubsC]
                          simp [subsAll]
                        · intro l' e' r heq hn
                          rcases List.eq_nil_or_concat r with rfl | ⟨r', x, rfl⟩
                          · obtain ⟨rfl, h2⟩ := List.append_inj' heq rfl
                            obtain rfl : child = e' := by simpa using h2
                            exact hfol
                          · rw [List.concat_eq_append, ← List.cons_append, ← List.append_assoc] at heq
                            obtain ⟨h1, _⟩ := List.append_inj' heq rfl
                            exact inv.pairs l' e' r' h1 hn
                      obtain ⟨m, rs, h1, h2, h3, h4⟩ := ih inv' hpr h
                      refine ⟨child :: m, rs, ?_, ?_, ?_, h4⟩
                      · rw [List.append_assoc] at h1
                        simpa [List.append_assoc] using h1
                      · simpa [List.append_assoc] using h2
                      · simpa [List.append_assoc] using h3
                    · exact nomatch hdec
                · next c' hdec =>
                  unfold decide' at hdec
                  split at hdec
                  · next hb =>
                    -- no data at the child before
                    obtain rfl : none = c' := Decision.keep.inj hdec
                    have ho : o = none := by
                      cases o with
                      | some b => exact nomatch hb
                      | none => rfl
                    have hpn : p.data = none := by
                      rw [ho] at hb
                      rw [← dataOf_eq]; exact hb
                    have hen : e.data = none := by
                      cases he : e.data with
                      | none => rfl
                      | some x =>
                        have := inv.rew.has.2 (by simp [he])
                        simp [hpn] at this
                    have hj := joined_flush inv
                    rw [ho] at hj
                    exact stopWith hj ⟨e, hlast, .inr (.inr (.inl hen))⟩ hrew hprop h
                  · next b hb =>
                    obtain ⟨hdb, hvb, hpd⟩ := known hb
                    split at hdec
                    · exact nomatch hdec
                    · next hi =>
                      have hkeep : (if o.isSome then some (popMove b) else none) = c' := Decision.keep.inj hdec
                      simp only [Bool.or_eq_true, Bool.not_eq_true', not_or, Bool.not_eq_true, Bool.not_eq_false] at hi
                      have hstop : Stop force intersects style l child :=
                        ⟨e, hlast, .inr (.inr (.inr (.inr (.inr (.inr (.inr ⟨hi.1, popMove b, absolute c,
                          by rw [drawn_popMove, hdb], hsubsC, hi.2⟩))))))⟩
                      by_cases ho : o = none
                      · have hn : c' = none := by rw [← hkeep, ho]; rfl
                        have hj := joined_flush inv
                        rw [ho] at hj
                        rw [hn] at h
                        exact stopWith hj hstop hrew hprop h
                      · have hn : c' = some (popMove b) := by
                          rw [← hkeep, if_pos (Option.isSome_iff_ne_none.2 ho)]
                        have inv' : Inv force intersects style l e p (some (popMove b)) :=
                          ⟨inv.last, inv.rew, inv.proper, ⟨by rw [drawn_popMove, hdb], valid_popMove hvb, hpd, plainP⟩,
                            inv.pairs⟩
                        rw [hn] at h
                        exact stopWith (joined_flush inv') hstop hrew hprop h

end Verif.MergePaths
