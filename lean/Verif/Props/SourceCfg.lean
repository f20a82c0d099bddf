/-
C81, C82: reading the sources of a case file.
-/
import Verif.Spec.SourceCfg
import Mathlib.Data.List.Forall2

namespace Dgtd.SourceCfg
open Spec
open Dgtd.Config (Err FieldType assignFieldType)

variable {K : Type}

theorem member_ok {α : Type} {x : Option α} {a : α} (h : member x = .ok a) : x = some a := by
  cases x with
  | none => cases h
  | some b => cases h; rfl

theorem bind_ok {α β : Type} {x : Except Err α} {f : α → Except Err β} {b : β} (h : x.bind f = .ok b) :
    ∃ a, x = .ok a ∧ f a = .ok b := by
  cases x with
  | error e => cases h
  | ok a => exact ⟨a, rfl, h⟩

theorem assemble3_starts {l : List K} {v : Vec K} (h : assemble3 l = .ok v) : Starts l v := by
  unfold assemble3 at h
  split at h
  · cases h
  · rename_i hl
    cases h
    refine ⟨by simp, by omega, fun i x hx => ?_⟩
    have hi : i < l.length := (List.getElem?_eq_some_iff.1 hx).1
    rw [List.getElem?_map, List.getElem?_range (by omega)]
    simp [hx]

theorem vec_ok {x : Option (List K)} {v : Vec K} (h : (member x).bind assemble3 = .ok v) :
    ∃ l, x = some l ∧ Starts l v := by
  obtain ⟨l, hl, hv⟩ := bind_ok h
  exact ⟨l, member_ok hl, assemble3_starts hv⟩

theorem ft_ok {x : Option String} {ft : FieldType} (h : (member x).bind assignFieldType = .ok ft) :
    x = some (word ft) := by
  obtain ⟨s, hs, hf⟩ := bind_ok h
  rw [member_ok hs]
  unfold assignFieldType at hf
  split at hf
  · cases hf; simp_all [word]
  · split at hf
    · cases hf; simp_all [word]
    · cases hf

theorem initial_faithful {s : Src K} {b : Built K} (ht : s.type = some "initial") (h : buildInitial s = .ok (some b)) :
    Faithful s b := by
  unfold buildInitial at h
  obtain ⟨m, hm, h⟩ := bind_ok h
  have hm := member_ok hm
  by_cases h1 : m = "gaussian"
  · rw [if_pos h1] at h
    obtain ⟨ft, hft, h⟩ := bind_ok h
    obtain ⟨sp, hsp, h⟩ := bind_ok h
    obtain ⟨c, hc, h⟩ := bind_ok h
    obtain ⟨pol, hpol, h⟩ := bind_ok h
    obtain ⟨dim, hdim, h⟩ := bind_ok h
    cases h
    exact ⟨ht, h1 ▸ hm, ft_ok hft, member_ok hsp, member_ok hc, member_ok hdim, vec_ok hpol⟩
  rw [if_neg h1] at h
  by_cases h2 : m = "resonant"
  · rw [if_pos h2] at h
    obtain ⟨ft, hft, h⟩ := bind_ok h
    obtain ⟨pol, hpol, h⟩ := bind_ok h
    obtain ⟨ms, hms, h⟩ := bind_ok h
    cases h
    exact ⟨ht, h2 ▸ hm, ft_ok hft, member_ok hms, vec_ok hpol⟩
  rw [if_neg h2] at h
  by_cases h3 : m = "besselj6_2D"
  · rw [if_pos h3] at h
    obtain ⟨ft, hft, h⟩ := bind_ok h
    obtain ⟨pol, hpol, h⟩ := bind_ok h
    cases h
    exact ⟨ht, h3 ▸ hm, ft_ok hft, vec_ok hpol⟩
  rw [if_neg h3] at h
  by_cases h4 : m = "besselj6_3D"
  · rw [if_pos h4] at h
    obtain ⟨ft, hft, h⟩ := bind_ok h
    obtain ⟨pol, hpol, h⟩ := bind_ok h
    cases h
    exact ⟨ht, h4 ▸ hm, ft_ok hft, vec_ok hpol⟩
  rw [if_neg h4] at h
  cases h

theorem initial_some {s : Src K} {o : Option (Built K)} (hk : ∀ m, s.magType = some m → m ∈ knownMagnitudes)
    (h : buildInitial s = .ok o) : ∃ b, o = some b := by
  unfold buildInitial at h
  obtain ⟨m, hm, h⟩ := bind_ok h
  have hm := hk m (member_ok hm)
  by_cases h1 : m = "gaussian"
  · rw [if_pos h1] at h
    obtain ⟨_, _, h⟩ := bind_ok h
    obtain ⟨_, _, h⟩ := bind_ok h
    obtain ⟨_, _, h⟩ := bind_ok h
    obtain ⟨_, _, h⟩ := bind_ok h
    obtain ⟨_, _, h⟩ := bind_ok h
    cases h; exact ⟨_, rfl⟩
  rw [if_neg h1] at h
  by_cases h2 : m = "resonant"
  · rw [if_pos h2] at h
    obtain ⟨_, _, h⟩ := bind_ok h
    obtain ⟨_, _, h⟩ := bind_ok h
    obtain ⟨_, _, h⟩ := bind_ok h
    cases h; exact ⟨_, rfl⟩
  rw [if_neg h2] at h
  by_cases h3 : m = "besselj6_2D"
  · rw [if_pos h3] at h
    obtain ⟨_, _, h⟩ := bind_ok h
    obtain ⟨_, _, h⟩ := bind_ok h
    cases h; exact ⟨_, rfl⟩
  rw [if_neg h3] at h
  by_cases h4 : m = "besselj6_3D"
  · rw [if_pos h4] at h
    obtain ⟨_, _, h⟩ := bind_ok h
    obtain ⟨_, _, h⟩ := bind_ok h
    cases h; exact ⟨_, rfl⟩
  simp [knownMagnitudes, h1, h2, h3, h4] at hm

theorem one_ok {s : Src K} {o : Option (Built K)} (h : buildOne s = .ok o) :
    (∃ t ∈ knownTypes, s.type = some t) ∧ (∀ b, o = some b → Faithful s b) ∧
    ((s.type = some "initial" → ∀ m, s.magType = some m → m ∈ knownMagnitudes) → ∃ b, o = some b) := by
  unfold buildOne at h
  obtain ⟨t, ht, h⟩ := bind_ok h
  have ht := member_ok ht
  by_cases h1 : t = "initial"
  · rw [if_pos h1] at h
    subst h1
    exact ⟨⟨_, by simp [knownTypes], ht⟩, fun b hb => initial_faithful ht (hb ▸ h), fun hk => initial_some (hk ht) h⟩
  rw [if_neg h1] at h
  by_cases h2 : t = "planewave"
  · rw [if_pos h2] at h
    subst h2
    obtain ⟨sp, hsp, h⟩ := bind_ok h
    obtain ⟨pol, hpol, h⟩ := bind_ok h
    obtain ⟨pr, hpr, h⟩ := bind_ok h
    cases h
    refine ⟨⟨_, by simp [knownTypes], ht⟩, fun b hb => ?_, fun _ => ⟨_, rfl⟩⟩
    cases hb
    exact ⟨ht, member_ok hsp, rfl, vec_ok hpol, vec_ok hpr⟩
  rw [if_neg h2] at h
  by_cases h3 : t = "dipole"
  · rw [if_pos h3] at h
    subst h3
    obtain ⟨len, hlen, h⟩ := bind_ok h
    obtain ⟨sp, hsp, h⟩ := bind_ok h
    cases h
    refine ⟨⟨_, by simp [knownTypes], ht⟩, fun b hb => ?_, fun _ => ⟨_, rfl⟩⟩
    cases hb
    exact ⟨ht, member_ok hlen, member_ok hsp⟩
  rw [if_neg h3] at h
  cases h

/-- **C81**: a case in which some source has no type or an unknown one is never accepted. -/
theorem C81_rejects (ss : List (Src K)) (s : Src K) (hs : s ∈ ss) (hk : ∀ t, s.type = some t → t ∉ knownTypes)
    (bs : List (Built K)) : buildSources ss ≠ .ok bs := by
  induction ss generalizing bs with
  | nil => cases hs
  | cons a ss ih =>
    intro h
    unfold buildSources at h
    obtain ⟨o, ho, h⟩ := bind_ok h
    obtain ⟨r, hr, h⟩ := bind_ok h
    rcases List.mem_cons.1 hs with rfl | hs
    · obtain ⟨⟨t, ht, hst⟩, _⟩ := one_ok ho
      exact hk t hst ht
    · exact ih hs r hr

/-- **C81**, partial: if every initial field has one of the four known magnitudes, an accepted case has exactly the
declared sources, in order, each with the declared values.  Missing: initial fields with an unknown magnitude, which
are accepted and ignored (`C81_violated`). -/
theorem C81_all_used_partial (ss : List (Src K)) (bs : List (Built K)) (h : buildSources ss = .ok bs)
    (hk : ∀ s ∈ ss, s.type = some "initial" → ∀ m, s.magType = some m → m ∈ knownMagnitudes) :
    List.Forall₂ Faithful ss bs := by
  induction ss generalizing bs with
  | nil => cases h; exact .nil
  | cons a ss ih =>
    unfold buildSources at h
    obtain ⟨o, ho, h⟩ := bind_ok h
    obtain ⟨r, hr, h⟩ := bind_ok h
    cases h
    obtain ⟨_, hf, hsome⟩ := one_ok ho
    obtain ⟨b, rfl⟩ := hsome (hk a (by simp))
    exact .cons (hf b rfl) (ih r hr fun s hs => hk s (List.mem_cons_of_mem _ hs))

/-- **C81** fails: a misspelt magnitude of an initial field is accepted, and the source does nothing. -/
theorem C81_violated :
    buildSources [({ type := some "initial", magType := some "gausian", fieldType := some "electric", spread := some 1 } : Src Int)] =
      .ok [] := rfl

/-- **C82**, partial: a vector with three entries is read as written.  Missing: other lengths (`C82_violated_short`,
`C82_violated_long`). -/
theorem C82_three_partial (x y z : K) : assemble3 [x, y, z] = .ok [some x, some y, some z] := rfl

/-- **C82** fails: with fewer than three entries the missing ones are whatever the memory held, and no error is
raised. -/
theorem C82_violated_short (l : List K) (h : l.length < 3) :
    ∃ v, assemble3 l = .ok v ∧ v[l.length]? = some none := by
  unfold assemble3
  rw [if_neg (by omega)]
  refine ⟨_, rfl, ?_⟩
  rw [List.getElem?_map, List.getElem?_range h]
  simp

/-- **C82** fails: with more than three entries memory outside the vector is written. -/
theorem C82_violated_long (l : List K) (h : 3 < l.length) : assemble3 l = .error .ub := if_pos h

/-- A case with a plane wave and an initial field, for the hypotheses of `C81_all_used_partial`. -/
example : buildSources [({ type := some "planewave", spread := some 2, polarization := some [0, 1, 0], propagation := some [1, 0, 0] } : Src Int),
      { type := some "initial", magType := some "gaussian", fieldType := some "magnetic", spread := some 3, center := some [5], polarization := some [0, 0, 1], dimension := some 1 }] =
    .ok [.planewave 2 none [some 0, some 1, some 0] [some 1, some 0, some 0],
      .gaussian .H 3 [5] [some 0, some 0, some 1] 1] := rfl

end Dgtd.SourceCfg
