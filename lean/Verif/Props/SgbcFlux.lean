/-
C65, C66, C67: what thin layers contribute to the rate of change.  All three hold only in part; the failing cases are
stated with witnesses.
-/
import Verif.Props.SgbcStep

set_option linter.unusedSectionVars false
set_option linter.unusedSimpArgs false

namespace Dgtd

/-- The value of an entry after a sequence of assignments is the one assigned last. -/
theorem exec_last {K : Type} {size : Nat} {ws : List (Int × K)} {a b : Nat → K} (h : exec size ws a = some b)
    (k : Nat) : b k = ((ws.filter fun w => w.1 = (k : Int)).getLast?.map Prod.snd).getD (a k) := by
  induction ws generalizing a with
  | nil => simp only [exec, Option.some.injEq] at h; simp [h]
  | cons w ws ih =>
    have hr := exec_inRange h w (by simp)
    simp only [exec, Option.bind_eq_some_iff] at h
    obtain ⟨c, h1, h2⟩ := h
    simp only [wr1, hr, and_self, if_true, Option.some.injEq] at h1
    rw [ih h2, ← h1]
    by_cases hw : w.1 = (k : Int)
    · have : w.1.toNat = k := by omega
      simp only [List.filter_cons, hw, decide_true, if_true]
      rw [List.getLast?_cons]
      cases (ws.filter fun w => w.1 = (k : Int)).getLast? with
      | none => simp
      | some x => simp
    · have : k ≠ w.1.toNat := by omega
      simp [List.filter_cons, hw, Function.update_of_ne this]

end Dgtd

namespace Dgtd.SgbcEvol

open Sgbc Spec

variable {σ K : Type} [Field K] [LinearOrder K] [IsStrictOrderedRing K] [FloorRing K]

lemma side_touch {B : Nat} {s : Int} {e h : Fin 3 → K} {w : Int × K}
    (hw : w ∈ sideWrites B 1 (fun _ => s) e h) : ∃ comp : Nat, comp < 6 ∧ w.1 = (comp * B : Nat) + s := by
  simp only [sideWrites, List.mem_flatMap, List.mem_cons, List.not_mem_nil, or_false, List.mem_range] at hw
  obtain ⟨d, -, x, -, rfl | rfl⟩ := hw
  · exact ⟨d.val, by omega, rfl⟩
  · exact ⟨3 + d.val, by omega, rfl⟩

lemma pass1_touch {S : Sys σ K} {inp : Nat → K} {st : St K} {l : List (Int × K)} (h : pass1 S inp st = some l)
    (w : Int × K) (hw : w ∈ l) (k : Nat) (hk : w.1 = (k : Int)) : touches S.B st.pair k := by
  obtain ⟨v, hv, hvw⟩ := pass1_cover h w hw
  unfold clear1 at hv
  rw [List.mem_append] at hv
  rcases hv with hv | hv
  · obtain ⟨c, hc, e⟩ := side_touch hv
    exact ⟨c, hc, Or.inl (by rw [← hk, ← hvw, e])⟩
  · split at hv
    · obtain ⟨c, hc, e⟩ := side_touch hv
      exact ⟨c, hc, Or.inr (by rw [← hk, ← hvw, e])⟩
    · simp at hv

lemma pass2_touch {S : Sys σ K} {inp : Nat → K} {st : St K} {l : List (Int × K)} (h : pass2 S inp st = some l)
    (w : Int × K) (hw : w ∈ l) (k : Nat) (hk : w.1 = (k : Int)) : touches S.B st.pair k := by
  obtain ⟨v, hv, hvw⟩ := pass2_cover h w hw
  unfold clear2 at hv
  split at hv
  · simp at hv
  · rw [List.mem_append] at hv
    rcases hv with hv | hv
    · obtain ⟨c, hc, e⟩ := side_touch hv
      exact ⟨c, hc, Or.inl (by rw [← hk, ← hvw, e])⟩
    · obtain ⟨c, hc, e⟩ := side_touch hv
      exact ⟨c, hc, Or.inr (by rw [← hk, ← hvw, e])⟩

/-- Dropping states that do not touch an entry does not change the assignments to that entry. -/
lemma passWrites_filter {f : St K → Option (List (Int × K))} (q : St K → Bool) (k : Nat)
    {sts : List (St K)} (hq : ∀ st ∈ sts, q st = false → ∀ l, f st = some l → ∀ w ∈ l, w.1 ≠ (k : Int))
    {l : List (Int × K)} (h : passWrites f sts = some l) :
    ∃ l', passWrites f (sts.filter q) = some l' ∧
      l'.filter (fun w => w.1 = (k : Int)) = l.filter (fun w => w.1 = (k : Int)) := by
  induction sts generalizing l with
  | nil => exact ⟨l, h, rfl⟩
  | cons st r ih =>
    simp only [passWrites, Option.bind_eq_bind, Option.bind_eq_some_iff, Option.some.injEq] at h
    obtain ⟨a, h1, b, h2, rfl⟩ := h
    obtain ⟨b', h3, h4⟩ := ih (fun s hs => hq s (List.mem_cons_of_mem _ hs)) h2
    cases hqs : q st with
    | true =>
      refine ⟨a ++ b', ?_, by simp [List.filter_append, h4]⟩
      simp [List.filter_cons, hqs, passWrites, h1, h3]
    | false =>
      refine ⟨b', by simp [List.filter_cons, hqs, h3], ?_⟩
      rw [List.filter_append, h4]
      have : a.filter (fun w => w.1 = (k : Int)) = [] := by
        rw [List.filter_eq_nil_iff]
        intro w hw
        simpa using hq st (by simp) hqs a h1 w hw
      rw [this, List.nil_append]

/-- Every assignment of a smaller selection is one of the whole. -/
lemma passWrites_sub {f : St K → Option (List (Int × K))} (q : St K → Bool)
    {sts : List (St K)} {l : List (Int × K)} (h : passWrites f sts = some l) :
    ∃ l', passWrites f (sts.filter q) = some l' ∧ ∀ w ∈ l', w ∈ l := by
  induction sts generalizing l with
  | nil => exact ⟨l, h, fun _ h => h⟩
  | cons st r ih =>
    simp only [passWrites, Option.bind_eq_bind, Option.bind_eq_some_iff, Option.some.injEq] at h
    obtain ⟨a, h1, b, h2, rfl⟩ := h
    obtain ⟨b', h3, h4⟩ := ih h2
    cases hqs : q st with
    | true =>
      refine ⟨a ++ b', by simp [List.filter_cons, hqs, passWrites, h1, h3], ?_⟩
      intro w hw
      rw [List.mem_append] at hw ⊢
      exact hw.imp id (h4 w)
    | false =>
      exact ⟨b', by simp [List.filter_cons, hqs, h3], fun w hw => List.mem_append_right _ (h4 w hw)⟩

/-- The result of adding rows at one row depends only on the products of that row. -/
lemma addRows_at (nd : Nat) (rows : Rows K) (dofs : List Nat) (v v' : Nat → K) (r : Nat)
    (h : rowDot (rows r) v = rowDot (rows r) v') {out out' : Nat → K} (ho : out r = out' r) :
    addRows nd rows dofs v out r = addRows nd rows dofs v' out' r := by
  unfold addRows
  generalize ((List.range 6).flatMap fun comp => dofs.map fun dof => comp * nd + dof) = l
  induction l generalizing out out' with
  | nil => exact ho
  | cons x l ih =>
    simp only [List.foldl_cons]
    apply ih
    by_cases hx : r = x
    · subst hx; simp [ho, h]
    · simp [Function.update_of_ne hx, ho]

/-- One pass at one row: dropping the states the row does not touch changes nothing. -/
lemma pass_at {S : Sys σ K} {f : St K → Option (List (Int × K))} (q : St K → Bool) (r : Nat) (rows : Rows K)
    {sts : List (St K)}
    (hq : ∀ st ∈ sts, q st = false → ∀ l, f st = some l → ∀ w ∈ l, ∀ e ∈ rows r, w.1 ≠ (e.1 : Int))
    (hR : ∀ e ∈ rows r, e.1 < 6 * S.B)
    {l : List (Int × K)} (h : passWrites f sts = some l) {a a' b : Nat → K} (ha : IsZero (6 * S.B) a)
    (ha' : IsZero (6 * S.B) a') (hb : exec (6 * S.B) l a = some b) :
    ∃ l' b', passWrites f (sts.filter q) = some l' ∧ exec (6 * S.B) l' a' = some b' ∧
      rowDot (rows r) b = rowDot (rows r) b' := by
  obtain ⟨l', h1, h2⟩ := passWrites_sub q h
  obtain ⟨b', hb'⟩ := exec_completes (6 * S.B) l' a' (fun w hw => exec_inRange hb w (h2 w hw))
  refine ⟨l', b', h1, hb', ?_⟩
  refine rowDot_agree _ _ _ fun e he => ?_
  obtain ⟨l'', h3, h4⟩ := passWrites_filter q e.1 (fun st hs hqs l hl w hw => hq st hs hqs l hl w hw e he) h
  rw [h1, Option.some.injEq] at h3
  subst h3
  rw [exec_last hb, exec_last hb', h4, ha _ (hR e he), ha' _ (hR e he)]

/-- **C65** (partial): what thin layers add to a row depends only on the layers with a node the row refers to.  `q`
is any selection that contains those.  Missing for the full property: layers sharing a node, or an element, with
the face of the row are not excluded, and they do disturb it (`C65_violated_corner`, `C65_violated_facing`). -/
theorem C65_other_layers_partial {S : Sys σ K} (rows : Rows K) (hR : ∀ r, ∀ e ∈ rows r, e.1 < 6 * S.B)
    (inp : Nat → K) (sts : List (St K)) (q : St K → Bool) (r : Nat)
    (hq : ∀ st ∈ sts, q st = false → ∀ e ∈ rows r, ¬ touches S.B st.pair e.1)
    (out w o v : Nat → K) (hw : ∀ k, k < 6 * S.B → w k = 0)
    (h : inject S rows inp sts out w = some (o, v)) :
    ∃ o' v', inject S rows inp (sts.filter q) out w = some (o', v') ∧ o' r = o r := by
  simp only [inject, Option.bind_eq_bind, Option.bind_eq_some_iff, Option.some.injEq, Prod.mk.injEq] at h
  obtain ⟨l1, h1, a1, h2, a2, h3, l2, h4, a3, h5, a4, h6, rfl, rfl⟩ := h
  have z2 : IsZero (6 * S.B) a2 := by
    refine clear_zero hw h2 h3 (fun x hx => ?_) (fun x hx => ?_)
    · obtain ⟨st, -, hx⟩ := List.mem_flatMap.1 hx
      exact clear1_zero hx
    · obtain ⟨st, hst, l', hl', hx'⟩ := passWrites_mem h1 x hx
      obtain ⟨y, hy, e⟩ := pass1_cover hl' x hx'
      exact ⟨y, List.mem_flatMap.2 ⟨st, hst, hy⟩, e⟩
  obtain ⟨l1', b1, g1, g2, g3⟩ := pass_at (S := S) q r rows (f := pass1 S inp)
    (fun st hs hqs l hl x hx e he hxe => hq st hs hqs e he (pass1_touch hl x hx e.1 hxe)) (hR r) h1 hw hw h2
  obtain ⟨b2, g4⟩ := exec_completes (6 * S.B) ((sts.filter q).flatMap (clear1 S)) b1 (fun x hx => by
    obtain ⟨st, hst, hx⟩ := List.mem_flatMap.1 hx
    exact exec_inRange h3 x (List.mem_flatMap.2 ⟨st, List.mem_of_mem_filter hst, hx⟩))
  have z2' : IsZero (6 * S.B) b2 := by
    refine clear_zero hw g2 g4 (fun x hx => ?_) (fun x hx => ?_)
    · obtain ⟨st, -, hx⟩ := List.mem_flatMap.1 hx
      exact clear1_zero hx
    · obtain ⟨st, hst, l', hl', hx'⟩ := passWrites_mem g1 x hx
      obtain ⟨y, hy, e⟩ := pass1_cover hl' x hx'
      exact ⟨y, List.mem_flatMap.2 ⟨st, hst, hy⟩, e⟩
  obtain ⟨l2', b3, g5, g6, g7⟩ := pass_at (S := S) q r rows (f := pass2 S inp)
    (fun st hs hqs l hl x hx e he hxe => hq st hs hqs e he (pass2_touch hl x hx e.1 hxe)) (hR r) h4 z2 z2' h5
  obtain ⟨b4, g8⟩ := exec_completes (6 * S.B) ((sts.filter q).flatMap (clear2 S)) b3 (fun x hx => by
    obtain ⟨st, hst, hx⟩ := List.mem_flatMap.1 hx
    exact exec_inRange h6 x (List.mem_flatMap.2 ⟨st, List.mem_of_mem_filter hst, hx⟩))
  refine ⟨addRows S.ndofs rows S.elem2 b3 (addRows S.ndofs rows S.elem1 b1 out), b4, ?_, ?_⟩
  · simp only [inject, g1, g2, g4, g5, g6, g8, Option.bind_eq_bind, Option.bind_some]
  · exact (addRows_at S.ndofs rows S.elem2 a3 b3 r g7
      (addRows_at S.ndofs rows S.elem1 a1 b1 r g3 rfl)).symm

/-! ### the contribution of one face -/

lemma mem_side {B : Nat} {s : Int} {e h : Fin 3 → K} {w : Int × K} :
    w ∈ sideWrites B 1 (fun _ => s) e h ↔ ∃ c, c < 6 ∧ w = (((c * B : Nat) : Int) + s, comps e h c) := by
  simp only [sideWrites, List.mem_flatMap, List.mem_cons, List.not_mem_nil, or_false, List.mem_range]
  constructor
  · rintro ⟨d, -, x, -, rfl | rfl⟩
    · exact ⟨d.val, by omega, by simp [comps, d.isLt]⟩
    · refine ⟨3 + d.val, by omega, ?_⟩
      have : ¬ (3 + d.val < 3) := by omega
      simp [comps, this, d.isLt]
  · rintro ⟨c, hc, rfl⟩
    by_cases h3 : c < 3
    · refine ⟨⟨c, h3⟩, ?_, 0, by omega, Or.inl ?_⟩
      · generalize (⟨c, h3⟩ : Fin 3) = d
        fin_cases d <;> simp
      · simp [comps, h3]
    · have h4 : c - 3 < 3 := by omega
      refine ⟨⟨c - 3, h4⟩, ?_, 0, by omega, Or.inr ?_⟩
      · generalize (⟨c - 3, h4⟩ : Fin 3) = d
        fin_cases d <;> simp
      · have : 3 + (c - 3) = c := by omega
        simp [comps, h3, h4, this]

/-- Assigning the comps components at two different nodes of a zero vector. -/
lemma two_sides {B gl gr : Nat} (hgl : gl < B) (hgr : gr < B) (hne : gl ≠ gr) {e h e' h' : Fin 3 → K}
    {w : Nat → K} (hw : IsZero (6 * B) w) (ws : List (Int × K))
    (hmem : ∀ x, x ∈ ws ↔ x ∈ sideWrites B 1 (fun _ => (gl : Int)) e h ∨
      x ∈ sideWrites B 1 (fun _ => (gr : Int)) e' h') :
    ∃ v, exec (6 * B) ws w = some v ∧ ∀ k, k < 6 * B → v k = faceVec B gl gr (comps e h) (comps e' h') k := by
  have idx : ∀ {c g : Nat}, c < 6 → g < B → c * B + g < 6 * B := by
    intro c g hc hg
    have : c * B + B ≤ 6 * B := by
      have : (c + 1) * B ≤ 6 * B := Nat.mul_le_mul_right _ (by omega)
      rw [Nat.add_mul, Nat.one_mul] at this; exact this
    omega
  have dm : ∀ {c g : Nat}, g < B → (c * B + g) % B = g ∧ (c * B + g) / B = c := by
    intro c g hg
    refine ⟨by rw [Nat.mul_comm, Nat.mul_add_mod, Nat.mod_eq_of_lt hg], ?_⟩
    rw [Nat.add_comm, Nat.add_mul_div_right _ _ (by omega), Nat.div_eq_of_lt hg, Nat.zero_add]
  obtain ⟨v, hv⟩ := exec_completes (6 * B) ws w (fun x hx => by
    rcases (hmem x).1 hx with hx | hx
    · obtain ⟨c, hc, rfl⟩ := mem_side.1 hx
      have := idx hc hgl
      simp only
      push_cast
      constructor
      · positivity
      · exact_mod_cast this
    · obtain ⟨c, hc, rfl⟩ := mem_side.1 hx
      have := idx hc hgr
      simp only
      push_cast
      constructor
      · positivity
      · exact_mod_cast this)
  refine ⟨v, hv, fun k hk => ?_⟩
  unfold faceVec
  have hB : 0 < B := by omega
  have hkc : k / B < 6 := by rw [Nat.div_lt_iff_lt_mul hB]; exact hk
  have hke : k / B * B + k % B = k := by rw [Nat.mul_comm]; exact Nat.div_add_mod k B
  by_cases h1 : k % B = gl
  · rw [if_pos h1]
    refine exec_value hv k _ ?_ ?_
    · intro x hx hxk
      rcases (hmem x).1 hx with hx | hx
      · obtain ⟨c, hc, rfl⟩ := mem_side.1 hx
        have : c * B + gl = k := by simp only at hxk; exact_mod_cast hxk
        have := (dm (c := c) hgl).2
        simp_all
      · obtain ⟨c, hc, rfl⟩ := mem_side.1 hx
        have : c * B + gr = k := by simp only at hxk; exact_mod_cast hxk
        have h2 := (dm (c := c) hgr).1
        rw [this] at h2
        omega
    · refine ⟨(((k / B * B : Nat) : Int) + gl, comps e h (k / B)), (hmem _).2 (Or.inl (mem_side.2 ⟨k / B, hkc, rfl⟩)), ?_⟩
      simp only
      rw [← h1]
      exact_mod_cast hke
  · rw [if_neg h1]
    by_cases h2 : k % B = gr
    · rw [if_pos h2]
      refine exec_value hv k _ ?_ ?_
      · intro x hx hxk
        rcases (hmem x).1 hx with hx | hx
        · obtain ⟨c, hc, rfl⟩ := mem_side.1 hx
          have : c * B + gl = k := by simp only at hxk; exact_mod_cast hxk
          have h2 := (dm (c := c) hgl).1
          rw [this] at h2
          omega
        · obtain ⟨c, hc, rfl⟩ := mem_side.1 hx
          have : c * B + gr = k := by simp only at hxk; exact_mod_cast hxk
          have := (dm (c := c) hgr).2
          simp_all
      · refine ⟨(((k / B * B : Nat) : Int) + gr, comps e' h' (k / B)), (hmem _).2 (Or.inr (mem_side.2 ⟨k / B, hkc, rfl⟩)), ?_⟩
        simp only
        rw [← h2]
        exact_mod_cast hke
    · rw [if_neg h2]
      rw [exec_other hv k ?_, hw k hk]
      intro x hx hxk
      rcases (hmem x).1 hx with hx | hx
      · obtain ⟨c, hc, rfl⟩ := mem_side.1 hx
        have : c * B + gl = k := by simp only at hxk; exact_mod_cast hxk
        have h3 := (dm (c := c) hgl).1
        rw [this] at h3
        omega
      · obtain ⟨c, hc, rfl⟩ := mem_side.1 hx
        have : c * B + gr = k := by simp only at hxk; exact_mod_cast hxk
        have h3 := (dm (c := c) hgr).1
        rw [this] at h3
        omega

lemma addRows_value (nd : Nat) (rows : Rows K) (dofs : List Nat) (v out : Nat → K) (hn : (rowsOf nd dofs).Nodup)
    (r : Nat) : addRows nd rows dofs v out r = out r + if r ∈ rowsOf nd dofs then rowDot (rows r) v else 0 := by
  unfold addRows
  change ((rowsOf nd dofs).foldl _ out) r = _
  generalize rowsOf nd dofs = l at hn ⊢
  induction l generalizing out with
  | nil => simp
  | cons x l ih =>
    simp only [List.foldl_cons]
    rw [ih _ (List.nodup_cons.1 hn).2]
    by_cases hx : r = x
    · subst hx
      simp [(List.nodup_cons.1 hn).1]
    · simp [Function.update_of_ne hx, hx]

lemma rowsOf_nodup (nd : Nat) (dofs : List Nat) (hn : dofs.Nodup) (hlt : ∀ d ∈ dofs, d < nd) :
    (rowsOf nd dofs).Nodup := by
  unfold rowsOf
  rw [List.nodup_flatMap]
  constructor
  · intro c _
    exact hn.map fun a b h => by simpa using h
  · refine List.nodup_range.imp ?_
    intro a b hab x hx hy
    simp only [List.mem_map] at hx hy
    obtain ⟨d, hd, rfl⟩ := hx
    obtain ⟨d', hd', he⟩ := hy
    apply hab
    have h1 := hlt d hd
    have h2 := hlt d' hd'
    have : (b * nd + d') / nd = (a * nd + d) / nd := by rw [he]
    rw [Nat.add_comm, Nat.add_mul_div_right _ _ (by omega), Nat.div_eq_of_lt h2, Nat.add_comm (a * nd),
      Nat.add_mul_div_right _ _ (by omega), Nat.div_eq_of_lt h1] at this
    omega

lemma read3_nat (nd : Nat) (inp : Nat → K) (off node : Nat) (ho : off ≤ 3) (hn : node < nd) :
    read3 nd inp off (node : Int) = some fun d : Fin 3 => inp ((off + d.val) * nd + node) := by
  have key : ∀ d : Nat, d < 3 → rd1 (6 * nd) inp ((((off + d) * nd : Nat) : Int) + node) =
      some (inp ((off + d) * nd + node)) := by
    intro d hd
    have h1 : (off + d + 1) * nd ≤ 6 * nd := Nat.mul_le_mul_right _ (by omega)
    rw [Nat.add_mul _ 1, Nat.one_mul] at h1
    have e : ((((off + d) * nd : Nat) : Int) + (node : Int)) = (((off + d) * nd + node : Nat) : Int) := by push_cast; ring
    rw [e, rd1, if_pos ⟨by positivity, by exact_mod_cast (by omega : (off + d) * nd + node < 6 * nd)⟩, Int.toNat_natCast]
  simp only [read3, key 0 (by omega), key 1 (by omega), key 2 (by omega), Option.bind_eq_bind, Option.bind_some]
  congr 1
  funext d
  fin_cases d <;> rfl

lemma fill_nat (S : Sys σ K) (b : Face) (inp : Nat → K) (src : Nat) (hsrc : src < S.ndofs) (tgt : Int) (st : St K)
    (idx : Nat) (hidx : idx < (S.layers st.tag).n) :
    ∃ e h, fillWrites S b inp (src : Int) tgt st (idx : Int) = some (sideWrites S.B 1 (fun _ => tgt) e h) ∧
      ∀ c, c < 6 → comps e h c = seen b (outer S.ndofs inp src) (surface (S.layers st.tag).n st idx) c := by
  have r0 := read3_nat S.ndofs inp 0 src (by omega) hsrc
  have r3 := read3_nat S.ndofs inp 3 src (by omega) hsrc
  have q0 := read3_nat (S.layers st.tag).n st.fields 0 idx (by omega) hidx
  have q3 := read3_nat (S.layers st.tag).n st.fields 3 idx (by omega) hidx
  have c3 : ∀ c, ¬ c < 3 → 3 + (c - 3) = c := by intro c hc; omega
  cases b with
  | PEC =>
    refine ⟨_, _, by simp only [fillWrites, r0, r3, Option.bind_eq_bind, Option.bind_some]; rfl, fun c hc => ?_⟩
    by_cases h : c < 3
    · simp [comps, seen, outer, h]
    · simp [comps, seen, outer, h, c3 c h, show c - 3 < 3 by omega]
  | PMC =>
    refine ⟨_, _, by simp only [fillWrites, r0, r3, Option.bind_eq_bind, Option.bind_some]; rfl, fun c hc => ?_⟩
    by_cases h : c < 3
    · simp [comps, seen, outer, h]
    · simp [comps, seen, outer, h, c3 c h, show c - 3 < 3 by omega]
  | SMA =>
    refine ⟨_, _, by simp only [fillWrites, r0, r3, Option.bind_eq_bind, Option.bind_some]; rfl, fun c hc => ?_⟩
    by_cases h : c < 3
    · simp [comps, seen, outer, h]
    · simp [comps, seen, outer, h, c3 c h, show c - 3 < 3 by omega]
  | slab =>
    refine ⟨_, _, by simp only [fillWrites, q0, q3, Option.bind_eq_bind, Option.bind_some]; rfl, fun c hc => ?_⟩
    simp [seen, surface]

lemma copy_nat (S : Sys σ K) (inp : Nat → K) (dof : Nat) (hd : dof < S.ndofs) (slot : Int) :
    ∃ e h, copyWrites S inp (dof : Int) slot = some (sideWrites S.B 1 (fun _ => slot) e h) ∧
      ∀ c, c < 6 → comps e h c = outer S.ndofs inp dof c := by
  refine ⟨_, _, by simp only [copyWrites, read3_nat S.ndofs inp 0 dof (by omega) hd,
    read3_nat S.ndofs inp 3 dof (by omega) hd, Option.bind_eq_bind, Option.bind_some]; rfl, fun c hc => ?_⟩
  by_cases h : c < 3
  · simp [comps, outer, h]
  · simp [comps, outer, h, show 3 + (c - 3) = c by omega, show c - 3 < 3 by omega]

/-- **C65**, one interior face alone. -/
theorem C65_one_face (S : Sys σ K) (rows : Rows K) (hR : ∀ r, ∀ e ∈ rows r, e.1 < 6 * S.B) (inp : Nat → K)
    (st : St K) (gl gr : Nat) (hpair : st.pair = ((gl : Int), (gr : Int))) (hgl : gl < S.ndofs) (hgr : gr < S.ndofs)
    (hne : gl ≠ gr) (hG : (S.layers st.tag).G < (S.layers st.tag).n)
    (h1 : S.elem1.Nodup ∧ ∀ d ∈ S.elem1, d < S.ndofs) (h2 : S.elem2.Nodup ∧ ∀ d ∈ S.elem2, d < S.ndofs)
    (out w : Nat → K) (hw : ∀ k, k < 6 * S.B → w k = 0) :
    ∃ o v, inject S rows inp [st] out w = some (o, v) ∧ ∀ r, o r = out r + faceFlux S rows inp st gl gr r := by
  have hB : S.ndofs ≤ S.B := by simp [Sys.B]
  have hgr1 : st.pair.2 ≠ -1 := by rw [hpair]; simp only; omega
  have vec : ∀ {x x' y y' : Nat → K}, (∀ c, c < 6 → x c = x' c) → (∀ c, c < 6 → y c = y' c) →
      ∀ k, k < 6 * S.B → faceVec S.B gl gr x y k = faceVec S.B gl gr x' y' k := by
    intro x x' y y' hx hy k hk
    have : k / S.B < 6 := by rw [Nat.div_lt_iff_lt_mul (by omega)]; exact hk
    simp only [faceVec, hx _ this, hy _ this]
  obtain ⟨e1, k1, p1, c1⟩ := copy_nat S inp gl hgl (gl : Int)
  obtain ⟨e2, k2, p2, c2⟩ := fill_nat S (S.layers st.tag).left inp gl hgl (gr : Int) st (S.layers st.tag).G hG
  have w1 : passWrites (pass1 S inp) [st] = some (sideWrites S.B 1 (fun _ => (gl : Int)) e1 k1 ++
      sideWrites S.B 1 (fun _ => (gr : Int)) e2 k2) := by
    have hp : pass1 S inp st = some (sideWrites S.B 1 (fun _ => (gl : Int)) e1 k1 ++
      sideWrites S.B 1 (fun _ => (gr : Int)) e2 k2) := by
      unfold pass1
      simp only [if_pos hgr1]
      rw [hpair]
      simp only [p1, leftIndex, p2, Option.bind_eq_bind, Option.bind_some]
    simp [passWrites, hp]
  obtain ⟨a1, x1, y1⟩ := two_sides (lt_of_lt_of_le hgl hB) (lt_of_lt_of_le hgr hB) hne hw _
    (fun x => List.mem_append (s := sideWrites S.B 1 (fun _ => (gl : Int)) e1 k1)
      (t := sideWrites S.B 1 (fun _ => (gr : Int)) e2 k2))
  have cl : clear1 S st = sideWrites S.B 1 (fun _ => (gl : Int)) 0 0 ++ sideWrites S.B 1 (fun _ => (gr : Int)) 0 0 := by
    unfold clear1; rw [if_pos hgr1, hpair]
  have cl2 : clear2 S st = sideWrites S.B 1 (fun _ => (gl : Int)) 0 0 ++ sideWrites S.B 1 (fun _ => (gr : Int)) 0 0 := by
    unfold clear2; rw [if_neg hgr1, hpair]
  have rng : ∀ x ∈ sideWrites S.B 1 (fun _ => (gl : Int)) (0 : Fin 3 → K) 0 ++
      sideWrites S.B 1 (fun _ => (gr : Int)) 0 0, 0 ≤ x.1 ∧ x.1 < ((6 * S.B : Nat) : Int) := by
    obtain ⟨v, hv, -⟩ := two_sides (lt_of_lt_of_le hgl hB) (lt_of_lt_of_le hgr hB) hne hw _
      (fun x => List.mem_append (s := sideWrites S.B 1 (fun _ => (gl : Int)) (0 : Fin 3 → K) 0)
      (t := sideWrites S.B 1 (fun _ => (gr : Int)) 0 0))
    exact exec_inRange hv
  obtain ⟨a2, x2⟩ := exec_completes (6 * S.B) ([st].flatMap (clear1 S)) a1 (by simpa [cl] using rng)
  have z2 : IsZero (6 * S.B) a2 := by
    refine clear_zero hw x1 x2 (fun x hx => ?_) (fun x hx => ?_)
    · obtain ⟨st, -, hx⟩ := List.mem_flatMap.1 hx
      exact clear1_zero hx
    · obtain ⟨st, hst, l', hl', hx'⟩ := passWrites_mem w1 x hx
      obtain ⟨y, hy, e⟩ := pass1_cover hl' x hx'
      exact ⟨y, List.mem_flatMap.2 ⟨st, hst, hy⟩, e⟩
  have hidx : (S.layers st.tag).n - 1 - (S.layers st.tag).G < (S.layers st.tag).n := by omega
  have hri : rightIndex (S.layers st.tag) = (((S.layers st.tag).n - 1 - (S.layers st.tag).G : Nat) : Int) := by
    unfold rightIndex; omega
  obtain ⟨e3, k3, p3, c3⟩ := fill_nat S (S.layers st.tag).right inp gr hgr (gl : Int) st _ hidx
  obtain ⟨e4, k4, p4, c4⟩ := copy_nat S inp gr hgr (gr : Int)
  have w2 : passWrites (pass2 S inp) [st] = some (sideWrites S.B 1 (fun _ => (gl : Int)) e3 k3 ++
      sideWrites S.B 1 (fun _ => (gr : Int)) e4 k4) := by
    have hp : pass2 S inp st = some (sideWrites S.B 1 (fun _ => (gl : Int)) e3 k3 ++
      sideWrites S.B 1 (fun _ => (gr : Int)) e4 k4) := by
      unfold pass2
      rw [if_neg hgr1, hpair, hri]
      simp only [p3, p4, Option.bind_eq_bind, Option.bind_some]
    simp [passWrites, hp]
  obtain ⟨a3, x3, y3⟩ := two_sides (lt_of_lt_of_le hgl hB) (lt_of_lt_of_le hgr hB) hne z2 _
    (fun x => List.mem_append (s := sideWrites S.B 1 (fun _ => (gl : Int)) e3 k3)
      (t := sideWrites S.B 1 (fun _ => (gr : Int)) e4 k4))
  obtain ⟨a4, x4⟩ := exec_completes (6 * S.B) ([st].flatMap (clear2 S)) a3 (by simpa [cl2] using rng)
  refine ⟨addRows S.ndofs rows S.elem2 a3 (addRows S.ndofs rows S.elem1 a1 out), a4, ?_, ?_⟩
  · simp only [inject, w1, x1, x2, w2, x3, x4, Option.bind_eq_bind, Option.bind_some]
  · intro r
    rw [addRows_value _ _ _ _ _ (rowsOf_nodup _ _ h2.1 h2.2), addRows_value _ _ _ _ _ (rowsOf_nodup _ _ h1.1 h1.2)]
    rw [rowDot_agree (rows r) a1 _ (fun e he => (y1 e.1 (hR r e he)).trans (vec c1 c2 e.1 (hR r e he))),
      rowDot_agree (rows r) a3 _ (fun e he => (y3 e.1 (hR r e he)).trans (vec c3 c4 e.1 (hR r e he)))]
    simp only [faceFlux]
    ring

/-- **C65** (partial): among any number of thin-layer faces, the rows that refer to nodes of one face only get exactly
that face's flux, computed from the outer field and that layer's own surface values.  Missing: rows that refer to
nodes of several faces, for which the claim is false (`C65_violated_corner`, `C65_violated_facing`). -/
theorem C65_face_flux_partial (S : Sys σ K) (rows : Rows K) (hR : ∀ r, ∀ e ∈ rows r, e.1 < 6 * S.B) (inp : Nat → K)
    (sts : List (St K)) (q : St K → Bool) (st : St K) (hst : sts.filter q = [st]) (r : Nat)
    (hq : ∀ s ∈ sts, q s = false → ∀ e ∈ rows r, ¬ touches S.B s.pair e.1)
    (gl gr : Nat) (hpair : st.pair = ((gl : Int), (gr : Int))) (hgl : gl < S.ndofs) (hgr : gr < S.ndofs)
    (hne : gl ≠ gr) (hG : (S.layers st.tag).G < (S.layers st.tag).n)
    (h1 : S.elem1.Nodup ∧ ∀ d ∈ S.elem1, d < S.ndofs) (h2 : S.elem2.Nodup ∧ ∀ d ∈ S.elem2, d < S.ndofs)
    (out w : Nat → K) (hw : ∀ k, k < 6 * S.B → w k = 0) (o v : Nat → K)
    (h : inject S rows inp sts out w = some (o, v)) : o r = out r + faceFlux S rows inp st gl gr r := by
  obtain ⟨o', v', g1, g2⟩ := C65_other_layers_partial rows hR inp sts q r hq out w o v hw h
  rw [hst] at g1
  obtain ⟨o'', v'', g3, g4⟩ := C65_one_face S rows hR inp st gl gr hpair hgl hgr hne hG h1 h2 out w hw
  rw [g1, Option.some.injEq, Prod.mk.injEq] at g3
  rw [← g2, g3.1, g4]

/-! ### failing cases -/

section Witness

/-- Two layers with one node per component beyond the ghosts, transparent on both sides. -/
def witLayer : Layer Unit ℚ where
  n := 3
  G := 1
  sub := 1
  left := .slab
  right := .slab
  step := fun _ x _ _ => some (x, ())

def witId : Fin 9 → ℚ := ![1, 0, 0, 0, 1, 0, 0, 0, 1]

/-- Corner: node 0 of one element is on two thin-layer faces, the first towards node 1, the second towards node 2. -/
def corner : Sys Unit ℚ where
  ndofs := 3
  nbr := 0
  layers := fun _ => witLayer
  globalRows := fun _ => []
  tfsf := none
  sgbcRows := some fun r => if r = 1 then [(0, 1), (1, -1)] else []
  elem1 := [0]
  elem2 := [1, 2]
  nbrData := fun _ _ _ => 0

def cornerRows : Rows ℚ := fun r => if r = 1 then [(0, 1), (1, -1)] else []

def cornerSt (x : ℚ) : List (St ℚ) :=
  [⟨1, (0, 1), witId, fun _ => 0, 0, 0⟩, ⟨2, (0, 2), witId, fun _ => x, 0, 0⟩]

/-- **C65**, failing case: the row of node 1 refers only to the nodes 0 and 1 of the first face, but what it gets
changes with the fields inside the *second* layer. -/
theorem C65_violated_corner :
    (inject corner cornerRows (fun _ => 0) (cornerSt 0) (fun _ => 0) (fun _ => 0)).map (fun q => q.1 1) = some 0 ∧
    (inject corner cornerRows (fun _ => 0) (cornerSt 5) (fun _ => 0) (fun _ => 0)).map (fun q => q.1 1) = some 5 := by
  decide +kernel

/-- Two sheets one element apart: node 1 and node 2 belong to the element in between, which is on the second side of
the first face and on the first side of the second. -/
def facing : Sys Unit ℚ := { corner with ndofs := 4, elem1 := [0, 1, 2], elem2 := [1, 2, 3] }

def facingRows : Rows ℚ := fun r => if r = 2 then [(0, 1), (1, 1)] else []

def facingSt : List (St ℚ) := [⟨1, (0, 1), witId, fun _ => 7, 0, 0⟩, ⟨2, (2, 3), witId, fun _ => 0, 0, 0⟩]

/-- **C65**, failing case: the element between two sheets gets the first sheet's face operator applied to the values
meant for the element on the other side (pass 1), on top of its own (pass 2): twice the surface value here, where
the face alone, with the in-between element only on its second side, gives it once. -/
theorem C65_violated_facing :
    (inject facing facingRows (fun _ => 0) facingSt (fun _ => 0) (fun _ => 0)).map (fun q => q.1 2) = some 14 ∧
    (inject { facing with elem1 := [0], elem2 := [1, 2] } facingRows (fun _ => 0) [facingSt[0]] (fun _ => 0)
      (fun _ => 0)).map (fun q => q.1 2) = some 7 := by
  decide +kernel

/-- A non-trivial case of `C65_face_flux_partial`: two faces far apart. -/
example : ∃ (S : Sys Unit ℚ) (rows : Rows ℚ) (sts : List (St ℚ)) (st : St ℚ) (q : St ℚ → Bool),
    sts.filter q = [st] ∧ (∀ r, ∀ e ∈ rows r, e.1 < 6 * S.B) ∧ sts.length = 2 ∧
    (∀ s ∈ sts, q s = false → ∀ e ∈ rows 0, ¬ touches S.B s.pair e.1) ∧
    (inject S rows (fun k => k) sts (fun _ => 0) (fun _ => 0)).map (fun p => p.1 0) = some (9 : ℚ) := by
  refine ⟨{ corner with ndofs := 4, elem1 := [0, 2], elem2 := [1, 3] }, fun r => if r < 4 then [(0, 2), (1, 1)] else [],
    [⟨1, (0, 1), witId, fun _ => 9, 0, 0⟩, ⟨2, (2, 3), witId, fun _ => 4, 0, 0⟩],
    ⟨1, (0, 1), witId, fun _ => 9, 0, 0⟩, fun s => s.tag == 1, ?_, ?_, rfl, ?_, ?_⟩
  · rfl
  · intro r e he
    simp only at he
    split at he
    · simp only [List.mem_cons, List.not_mem_nil, or_false] at he
      rcases he with rfl | rfl <;> simp [Sys.B, corner]
    · simp at he
  · intro s hs hq e he
    simp only [List.mem_cons, List.not_mem_nil, or_false] at hs
    rcases hs with rfl | rfl
    · simp at hq
    · rintro ⟨c, hc, h | h⟩
      all_goals
        simp only [show (0 : Nat) < 4 by norm_num, if_true, List.mem_cons, List.not_mem_nil, or_false] at he
        rcases he with rfl | rfl <;> simp [Sys.B, corner] at h <;> omega
  · decide +kernel

end Witness

/-! ### exterior layers -/

lemma pass_exterior {S : Sys σ K} {inp : Nat → K} {st st' : St K} (hf : frame st = frame st')
    (h : st.pair.2 ≠ -1 → st.fields = st'.fields) :
    pass1 S inp st = pass1 S inp st' ∧ pass2 S inp st = pass2 S inp st' ∧ clear1 S st = clear1 S st' ∧
      clear2 S st = clear2 S st' := by
  simp only [frame, Prod.mk.injEq] at hf
  obtain ⟨e1, e2, e3⟩ := hf
  by_cases hp : st.pair.2 = -1
  · have hp' : st'.pair.2 = -1 := by rw [← e2]; exact hp
    have n1 : ¬ st.pair.2 ≠ -1 := by simpa using hp
    have n2 : ¬ st'.pair.2 ≠ -1 := by simpa using hp'
    refine ⟨?_, ?_, ?_, ?_⟩
    · simp only [pass1, if_neg n1, if_neg n2, e2]
    · simp only [pass2, if_pos hp, if_pos hp']
    · simp only [clear1, if_neg n1, if_neg n2, e2]
    · simp only [clear2, if_pos hp, if_pos hp']
  · have hc : core st = core st' := by simp [core, frame, e1, e2, e3, h hp]
    exact ⟨pass1_core inp hc, pass2_core inp hc, by simp [clear1, e2], by simp [clear2, e2]⟩

/-- **C66** is false: the fields inside a layer on an exterior face have no effect at all on what the thin layers add
to the rate of change, whatever they are. -/
theorem C66_violated (S : Sys σ K) (rows : Rows K) (inp : Nat → K) (sts sts' : List (St K))
    (hsame : List.Forall₂ (fun st st' => frame st = frame st' ∧ (st.pair.2 ≠ -1 → st.fields = st'.fields)) sts sts')
    (out w : Nat → K) : inject S rows inp sts out w = inject S rows inp sts' out w := by
  have key : passWrites (pass1 S inp) sts = passWrites (pass1 S inp) sts' ∧
      passWrites (pass2 S inp) sts = passWrites (pass2 S inp) sts' ∧
      sts.flatMap (clear1 S) = sts'.flatMap (clear1 S) ∧ sts.flatMap (clear2 S) = sts'.flatMap (clear2 S) := by
    induction hsame with
    | nil => exact ⟨rfl, rfl, rfl, rfl⟩
    | cons h1 _ ih =>
      obtain ⟨a, b, c, d⟩ := pass_exterior (S := S) (inp := inp) h1.1 h1.2
      obtain ⟨i1, i2, i3, i4⟩ := ih
      simp only [passWrites, a, b, i1, i2, List.flatMap_cons, c, d, i3, i4, and_self]
  obtain ⟨k1, k2, k3, k4⟩ := key
  simp only [inject, k1, k2, k3, k4]

/-- **C66** (partial): a layer on an *interior* face does act back: what its first side sees is its own surface field,
so changing that field changes the rate of change whenever the operator couples to it.  Missing: exterior faces,
where it is false (`C66_violated`). -/
theorem C66_interior_acts_partial (S : Sys σ K) (rows : Rows K) (hR : ∀ r, ∀ e ∈ rows r, e.1 < 6 * S.B)
    (inp : Nat → K) (st st' : St K) (gl gr : Nat) (hf : frame st = frame st')
    (hpair : st.pair = ((gl : Int), (gr : Int))) (hgl : gl < S.ndofs) (hgr : gr < S.ndofs)
    (hne : gl ≠ gr) (hG : (S.layers st.tag).G < (S.layers st.tag).n) (hleft : (S.layers st.tag).left = .slab)
    (h1 : S.elem1.Nodup ∧ ∀ d ∈ S.elem1, d < S.ndofs) (h2 : S.elem2.Nodup ∧ ∀ d ∈ S.elem2, d < S.ndofs)
    (r : Nat) (hr1 : r ∈ rowsOf S.ndofs S.elem1) (hr2 : r ∉ rowsOf S.ndofs S.elem2)
    (comp : Nat) (val : K) (hrow : rows r = [(comp * S.B + gr, val)]) (hval : val ≠ 0)
    (hdiff : surface (S.layers st.tag).n st (S.layers st.tag).G comp ≠
      surface (S.layers st.tag).n st' (S.layers st.tag).G comp)
    (out w : Nat → K) (hw : ∀ k, k < 6 * S.B → w k = 0) :
    ∃ o v o' v', inject S rows inp [st] out w = some (o, v) ∧ inject S rows inp [st'] out w = some (o', v') ∧
      o r ≠ o' r := by
  have hf' := hf
  simp only [frame, Prod.mk.injEq] at hf'
  obtain ⟨e1, e2, e3⟩ := hf'
  obtain ⟨o, v, g1, g2⟩ := C65_one_face S rows hR inp st gl gr hpair hgl hgr hne hG h1 h2 out w hw
  obtain ⟨o', v', k1, k2⟩ := C65_one_face S rows hR inp st' gl gr (by rw [← e2]; exact hpair) hgl hgr hne
    (by rw [← e1]; exact hG) h1 h2 out w hw
  refine ⟨o, v, o', v', g1, k1, ?_⟩
  have hB : S.ndofs ≤ S.B := by simp [Sys.B]
  have hgrB : gr < S.B := by omega
  have m1 : (comp * S.B + gr) % S.B = gr := by rw [Nat.mul_comm, Nat.mul_add_mod, Nat.mod_eq_of_lt hgrB]
  have m2 : (comp * S.B + gr) / S.B = comp := by
    rw [Nat.add_comm, Nat.add_mul_div_right _ _ (by omega), Nat.div_eq_of_lt hgrB, Nat.zero_add]
  rw [g2, k2]
  simp only [faceFlux, if_pos hr1, if_neg hr2, hrow, rowDot, List.foldl_cons, List.foldl_nil, faceVec, m1, m2,
    if_neg (Ne.symm hne), if_true, ← e1, hleft, seen]
  intro h
  apply hdiff
  have := mul_left_cancel₀ hval (by simpa using h)
  exact this

/-! ### implicit integrators -/

/-- **C67** is false: what an implicit integrator sees does not depend on the thin layers at all - neither on their
operator nor on their states - ... -/
theorem C67_violated (S : Sys σ K) (t : K) (x junk : Nat → K) (ev : Ev σ K) (R : Option (Rows K)) (sts : List (St K)) :
    (implicitRhs { S with sgbcRows := R } t x junk { ev with states := sts }).map Prod.fst =
      (implicitRhs S t x junk ev).map Prod.fst := by
  unfold implicitRhs
  have h1 : implicitArg { S with sgbcRows := R } x junk = implicitArg S x junk := rfl
  have h2 : ∀ out sc, applyTfsf { S with sgbcRows := R } t out sc = applyTfsf S t out sc := fun _ _ => rfl
  simp only [h1, h2, Option.bind_eq_bind]
  cases implicitArg S x junk with
  | none => rfl
  | some w =>
    simp only [Option.bind_some]
    cases S.tfsf with
    | none => rfl
    | some T =>
      simp only
      cases applyTfsf S t (fun _ => 0) ev.scratch <;> rfl

/-- ... while the explicit right-hand side does depend on them. -/
theorem C67_violated_witness :
    (exCommitted.bind fun ev => (mult exSys 0 (fun k => (k : ℚ)) (fun _ => 0) ev).map fun q => q.1 0) ≠
    (exCommitted.bind fun ev => (implicitRhs exSys 0 (fun k => (k : ℚ)) (fun _ => 0) ev).map fun q => q.1 0) := by
  decide +kernel

/-- **C67** (partial): without thin layers the two integrators see the same rate of change.  Missing: models with thin
layers, where it is false (`C67_violated`, `C67_violated_witness`). -/
theorem C67_without_layers_partial (S : Sys σ K) (hS : InBounds S) (hnone : S.sgbcRows = none) (t : K)
    (x junk junk' : Nat → K) (ev : Ev σ K) (hc : Clean S ev) :
    (mult S t x junk ev).map Prod.fst = (implicitRhs S t x junk' ev).map Prod.fst := by
  obtain ⟨w, hw⟩ := assemble_completes S x (ev.scratch.getD junk)
  have arg : ∃ a, implicitArg S x junk' = some a ∧ mulRows S.globalRows a = mulRows S.globalRows w := by
    unfold implicitArg
    by_cases hn : S.nbr = 0
    · refine ⟨x, by rw [if_pos hn], ?_⟩
      funext r
      refine rowDot_agree _ _ _ fun e he => ?_
      have hlt := hS.global r e he
      have hB : S.B = S.ndofs := by simp [Sys.B, hn]
      symm
      refine exec_value hw e.1 (x e.1) ?_ (assemble_covers S x e.1 hlt)
      intro v hv hve
      simp only [assembleWrites, hn, List.range_zero, List.map_nil, List.mem_append,
        List.mem_flatMap, List.mem_map, List.mem_range, List.not_mem_nil, and_false, exists_false, or_false] at hv
      obtain ⟨c, -, i, hi, rfl⟩ := hv
      simp only at hve ⊢
      have : c.val * S.B + i = e.1 := by exact_mod_cast hve
      rw [← this, hB]
    · obtain ⟨a, ha⟩ := assemble_completes S x junk'
      refine ⟨a, by rw [if_neg hn, ha], ?_⟩
      funext r
      refine rowDot_agree _ _ _ fun e he => ?_
      exact exec_agree ha hw _ (Or.inr (assemble_covers S x _ (hS.global r e he)))
  obtain ⟨a, ha, hrow⟩ := arg
  simp only [mult, subSolve, hnone, Option.bind_eq_bind, Option.bind_some, rhs, hw, implicitRhs, ha, hrow]
  cases hT : S.tfsf with
  | none => simp [applyTfsf, hT]
  | some T =>
    have fix : ∃ v : Nat → K, IsZero (6 * S.B) v ∧
        applyTfsf S t (fun _ => 0) ev.scratch = applyTfsf S t (fun _ => 0) (some v) := by
      cases hs : ev.scratch with
      | none => exact ⟨fun _ => 0, fun _ _ => rfl, applyTfsf_none hT _ _⟩
      | some v => exact ⟨v, fun k hk => hc v hs k hk, rfl⟩
    obtain ⟨v, hv, g⟩ := fix
    have hz := isZero_zeroed (6 * S.B) w
    simp only [g]
    have e1 := (applyTfsf_clean S hS t (fun _ => (0 : K)) v hv).1 _ hz
    have lin : (applyTfsf S t (mulRows S.globalRows w) (some (zeroed (6 * S.B) w))).map Prod.fst =
        ((applyTfsf S t (fun _ => (0 : K)) (some (zeroed (6 * S.B) w))).map Prod.fst).map
          fun s r => mulRows S.globalRows w r + s r := by
      simp only [applyTfsf, hT, Option.getD_some]
      split
      · simp
      · cases exec (6 * S.B) (scatterWrites S.B T t) (zeroed (6 * S.B) w) with
        | none => rfl
        | some y =>
          simp only [Option.map_some, Option.some.injEq]
          funext r
          ring
    rw [← e1] at lin
    cases h4 : applyTfsf S t (fun _ => (0 : K)) (some v) <;>
      cases h5 : applyTfsf S t (mulRows S.globalRows w) (some (zeroed (6 * S.B) w)) <;> simp_all

/-- `C66_violated` applies to an exterior layer with fields 0 or 5, and what the layers add is not just nothing. -/
example :
    List.Forall₂ (fun st st' : St ℚ => frame st = frame st' ∧ (st.pair.2 ≠ -1 → st.fields = st'.fields))
      [⟨1, (0, -1), witId, fun _ => 0, 0, 0⟩] [⟨1, (0, -1), witId, fun _ => 5, 0, 0⟩] ∧
    (inject { corner with elem1 := [0, 1] } cornerRows (fun k => k + 3) [⟨1, (0, -1), witId, fun _ => 5, 0, 0⟩]
      (fun _ => 0) (fun _ => 0)).map (fun q => q.1 1) = some 3 := by
  refine ⟨.cons ⟨rfl, by simp⟩ .nil, ?_⟩
  decide +kernel

/-- An interior layer meets `C66_interior_acts_partial`: first element with nodes 0, second with nodes 1, 2. -/
example : ∃ (rows : Rows ℚ) (st st' : St ℚ), frame st = frame st' ∧ st.pair = (0, 1) ∧
    (corner.layers st.tag).G < (corner.layers st.tag).n ∧ (corner.layers st.tag).left = .slab ∧
    0 ∈ rowsOf corner.ndofs corner.elem1 ∧ 0 ∉ rowsOf corner.ndofs corner.elem2 ∧ rows 0 = [(0 * corner.B + 1, 2)] ∧
    surface (corner.layers st.tag).n st (corner.layers st.tag).G 0 ≠
      surface (corner.layers st.tag).n st' (corner.layers st.tag).G 0 :=
  ⟨fun r => if r = 0 then [(1, 2)] else [], ⟨1, (0, 1), witId, fun _ => 0, 0, 0⟩, ⟨1, (0, 1), witId, fun _ => 5, 0, 0⟩,
    rfl, rfl, by decide, rfl, by decide, by decide, by decide +kernel, by decide +kernel⟩

/-- `C67_without_layers_partial` applies to a system with a volume operator and no thin layers. -/
example : ∃ (S : Sys Unit ℚ) (ev : Ev Unit ℚ), InBounds S ∧ S.sgbcRows = none ∧ Clean S ev ∧
    ((mult S 0 (fun k => (k : ℚ)) (fun _ => 9) ev).map fun q => q.1 0) = some 8 := by
  refine ⟨{ corner with sgbcRows := none, globalRows := fun r => if r = 0 then [(4, 2)] else [] },
    { exEv with states := [] }, ⟨?_, ?_, ?_⟩, rfl, ?_, ?_⟩
  · intro r e he
    simp only at he
    split at he
    · simp only [List.mem_cons, List.not_mem_nil, or_false] at he
      subst he
      simp [Sys.B, corner]
    · simp at he
  · intro T hT
    simp [corner] at hT
  · intro T hT
    simp at hT
  · intro w hw
    simp [exEv] at hw
  · decide +kernel

end Dgtd.SgbcEvol
