/-
C192: a run with thin layers always comes to its end.
-/
import Verif.Spec.Finish
import Verif.Props.LayerStep
import Verif.Lemmas.SgbcRanks

namespace Dgtd.Finish
open Dgtd.Simulate Dgtd.SgbcEvol Dgtd.SgbcEvol.Spec Dgtd.Sgbc Spec Dgtd.SimLayer
open Dgtd.TimeLoop (slack trueDt keepGoing)
open Dgtd.Longer (map_next_ne updateProbes_some)

variable {σ R : Type} {Y : Sys σ ℝ} {ok : σ → Prop} {p : Int → (Nat → ℝ) → ℝ → ℝ → Option (Nat → ℝ)}

/-- Every layer fits. -/
def AllFit (Y : Sys σ ℝ) (dt : ℝ) (l : List (St ℝ)) : Prop := ∀ st ∈ l, Fits Y dt st

lemma Fits.frame {dt : ℝ} {st st' : St ℝ} (h : frame st' = frame st) (hf : Fits Y dt st) : Fits Y dt st' := by
  simp only [SgbcEvol.Spec.frame, Prod.mk.injEq] at h
  obtain ⟨h1, h2, -⟩ := h
  exact ⟨by rw [h2]; exact hf.first, by rw [h2]; exact hf.second, by rw [h1]; exact hf.ghosts, by rw [h1]; exact hf.count⟩

lemma AllFit.frame {dt : ℝ} {l l' : List (St ℝ)} (h : l'.map frame = l.map frame) (hf : AllFit Y dt l) : AllFit Y dt l' := by
  intro st hst
  have : SgbcEvol.Spec.frame st ∈ l.map SgbcEvol.Spec.frame := by rw [← h]; exact List.mem_map_of_mem hst
  obtain ⟨s, hs, e⟩ := List.mem_map.1 this
  exact Fits.frame e.symm (hf s hs)

lemma Fits.shorter {dt d : ℝ} (h : d ≤ dt) {st : St ℝ} (hf : Fits Y dt st) : Fits Y d st :=
  ⟨hf.first, hf.second, hf.ghosts, fun hs => le_trans (by gcongr) (hf.count hs)⟩

lemma iface_some {dt : ℝ} {st : St ℝ} (h : Fits Y dt st) (inp : Nat → ℝ) : ∃ q, ifaceNormSq Y.ndofs inp st.pair = some q := by
  unfold ifaceNormSq
  rw [read3_some inp 0 (Or.inl rfl) h.first, read3_some inp 3 (Or.inr rfl) h.first]
  by_cases hp : st.pair.2 = -1
  · simp [hp]
  · rw [read3_some inp 0 (Or.inl rfl) (h.second hp), read3_some inp 3 (Or.inr rfl) (h.second hp)]
    simp [hp]

lemma isQuiet_some {dt : ℝ} {st : St ℝ} (h : Fits Y dt st) (inp : Nat → ℝ) : ∃ q, isQuiet Y inp st = some q := by
  obtain ⟨q, e⟩ := iface_some h inp
  unfold isQuiet
  rw [e]
  exact ⟨_, rfl⟩

lemma allQuiet_some {dt : ℝ} (inp : Nat → ℝ) : ∀ l : List (St ℝ), AllFit Y dt l → ∃ q, allQuiet Y inp l = some q
  | [], _ => ⟨true, rfl⟩
  | st :: l, h => by
    obtain ⟨q, e⟩ := isQuiet_some (h st (by simp)) inp
    obtain ⟨q', e'⟩ := allQuiet_some inp l fun s hs => h s (by simp [hs])
    unfold allQuiet
    rw [e]
    by_cases hq : q = true
    · exact ⟨q', by simp [hq, e']⟩
    · exact ⟨false, by simp [hq]⟩

lemma ghost_some {dt : ℝ} {st : St ℝ} (h : Fits Y dt st) (inp : Nat → ℝ) (prev : Fin 12 → ℝ) :
    ∃ g, ghostValues Y.ndofs inp st.rot st.pair prev = some g := by
  unfold ghostValues rotateToLocal
  rw [read3_some inp 0 (Or.inl rfl) h.first, read3_some inp 3 (Or.inr rfl) h.first]
  by_cases hp : st.pair.2 = -1
  · simp [hp]
  · rw [read3_some inp 0 (Or.inl rfl) (h.second hp), read3_some inp 3 (Or.inr rfl) (h.second hp)]
    simp [hp]

lemma commitAll_some {dt : ℝ} (inp : Nat → ℝ) : ∀ (l : List (St ℝ)) (prevs : List (Fin 12 → ℝ)), AllFit Y dt l →
    ∃ cs, commitAll Y inp l prevs = some cs ∧ cs.length = l.length
  | [], _, _ => ⟨[], rfl, rfl⟩
  | st :: l, prevs, h => by
    obtain ⟨g, e⟩ := ghost_some (h st (by simp)) inp (prevs.headD 0)
    obtain ⟨cs, e', n⟩ := commitAll_some inp l prevs.tail fun s hs => h s (by simp [hs])
    refine ⟨⟨st.fields, g⟩ :: cs, ?_, by simp [n]⟩
    unfold commitAll commit1
    rw [e, e']
    rfl

lemma restore_some : ∀ (l : List (St ℝ)) (cs : List (Cp ℝ)), cs.length = l.length →
    ∃ r, restore l cs = some r ∧ r.map frame = l.map frame
  | [], _, _ => ⟨[], rfl, rfl⟩
  | _ :: _, [], h => by simp at h
  | st :: l, c :: cs, h => by
    obtain ⟨r, e, f⟩ := restore_some l cs (by simpa using h)
    exact ⟨{ st with fields := c.fields } :: r, by simp [restore, e], by simp [f, frame]⟩

lemma finalRestore_some {dt : ℝ} (inp : Nat → ℝ) : ∀ (l : List (St ℝ)) (cs : List (Cp ℝ)), AllFit Y dt l → cs.length = l.length →
    ∃ r, finalRestore Y inp l cs = some r ∧ r.map frame = l.map frame
  | [], _, _, _ => ⟨[], rfl, rfl⟩
  | _ :: _, [], _, h => by simp at h
  | st :: l, c :: cs, hf, h => by
    obtain ⟨g, e⟩ := ghost_some (hf st (by simp)) inp st.ghostNew
    obtain ⟨r, e', f⟩ := finalRestore_some inp l cs (fun s hs => hf s (by simp [hs])) (by simpa using h)
    refine ⟨{ st with fields := c.fields, ghostOld := c.ghostOld, ghostNew := g } :: r, ?_, by simp [f, frame]⟩
    unfold finalRestore
    rw [e, e']
    rfl

lemma subSteps_some {dt : ℝ} {st : St ℝ} (h : Fits Y dt st) (base : ℝ) : ∃ ss, subSteps base dt (Y.layers st.tag).sub = some ss := by
  have : ∃ n, nSteps (Y.layers st.tag).sub dt = some n := by
    unfold nSteps
    split_ifs with h1 h2
    · exact ⟨_, rfl⟩
    · refine absurd ?_ h2
      have : ⌈dt / (Y.layers st.tag).sub⌉ ≤ 2 ^ 31 - 1 := Int.ceil_le.2 (by have := h.count h1.1; push_cast; norm_num at this ⊢; exact this)
      omega
    · exact ⟨_, rfl⟩
  obtain ⟨n, e⟩ := this
  unfold subSteps
  rw [e]
  exact ⟨_, rfl⟩

/-- A layer whose ghost values can always be set advances. -/
lemma advance_some (hp : Ends p) (tag : Int) (j : Job ℝ) (hpos : ∀ s ∈ j.steps, 0 < s.len) (hu : ∀ s a, ∃ b, j.upd s a = some b) (x : Nat → ℝ) :
    ∃ y, Spec.advance (p tag) j x = some y := by
  unfold Spec.advance
  split_ifs
  · exact ⟨x, rfl⟩
  · have : ∀ (l : List (SubStep ℝ)) (x : Nat → ℝ), (∀ s ∈ l, 0 < s.len) → ∃ y, l.foldlM (Spec.advance1 (p tag) j) x = some y := by
      intro l
      induction l with
      | nil => exact fun x _ => ⟨x, rfl⟩
      | cons s l ih =>
        intro x hl
        obtain ⟨a, ha⟩ := hu s x
        have : ∃ b, Spec.advance1 (p tag) j x s = some b := by
          unfold Spec.advance1
          rw [ha, Option.bind_some]
          cases he : solveStep s.start s.len with
          | none => exact ⟨a, rfl⟩
          | some td =>
            unfold solveStep at he
            split_ifs at he
            have hs := hl s (by simp)
            obtain rfl := Option.some.inj he
            exact hp tag a _ _ (lt_min hs (by linarith))
        obtain ⟨b, hb⟩ := this
        obtain ⟨y, hy⟩ := ih b fun s hs => hl s (by simp [hs])
        exact ⟨y, by rw [List.foldlM_cons, hb]; exact hy⟩
    exact this j.steps x hpos

lemma advanceAll_some (hp : Ends p) (job : St ℝ → Option (Job ℝ)) : ∀ l : List (St ℝ),
    (∀ st ∈ l, ∃ j, job st = some j ∧ (∀ s ∈ j.steps, 0 < s.len) ∧ ∀ s a, ∃ b, j.upd s a = some b) → ∃ r, advanceAll p job l = some r
  | [], _ => ⟨[], rfl⟩
  | st :: l, h => by
    obtain ⟨j, e, h1, h2⟩ := h st (by simp)
    obtain ⟨y, ey⟩ := advance_some hp st.tag j h1 h2 st.fields
    obtain ⟨r, er⟩ := advanceAll_some hp job l fun s hs => h s (by simp [hs])
    exact ⟨{ st with fields := y } :: r, by simp [advanceAll, advanceSt, e, ey, er]⟩

lemma serial_some (hL : ∀ tag, Functional (Y.layers tag) ok (p tag)) (hp : Ends p) (job : St ℝ → Option (Job ℝ)) (l : List (St ℝ))
    (h : ∀ st ∈ l, ∃ j, job st = some j ∧ (∀ s ∈ j.steps, 0 < s.len) ∧ ∀ s a, ∃ b, j.upd s a = some b) (ws : Int → Wrapper σ ℝ)
    (hw : ∀ tag, ok (ws tag).inner) : ∃ ws' r, serial Y.layers job ws l = some (ws', r) := by
  obtain ⟨r, hr⟩ := advanceAll_some hp job l h
  rcases serial_pure hL job l (fun st hst j hj => by
      obtain ⟨j', e, g, -⟩ := h st hst
      rw [hj] at e
      obtain rfl := Option.some.inj e
      exact g) ws hw with ⟨g, -⟩ | ⟨ws', r', g, -, -⟩
  · rw [hr] at g; exact absurd g (by simp)
  · exact ⟨ws', r', g⟩

lemma interp_some {dt : ℝ} {st : St ℝ} (h : Fits Y dt st) (al : ℝ) (old new : Fin 12 → ℝ) (a : Nat → ℝ) :
    ∃ b, updateInterpolated (Y.layers st.tag).n (Y.layers st.tag).G al st.pair old new a = some b := by
  have := h.ghosts
  obtain ⟨b, hb, -⟩ := two_sides (Y.layers st.tag).n (Y.layers st.tag).G (by omega) (decide (st.pair.2 ≠ -1))
    (fun d : Fin 3 => (1 - al) * old ⟨d.val, by omega⟩ + al * new ⟨d.val, by omega⟩)
    (fun d : Fin 3 => (1 - al) * old ⟨3 + d.val, by omega⟩ + al * new ⟨3 + d.val, by omega⟩)
    (fun d : Fin 3 => (1 - al) * old ⟨6 + d.val, by omega⟩ + al * new ⟨6 + d.val, by omega⟩)
    (fun d : Fin 3 => (1 - al) * old ⟨6 + 3 + d.val, by omega⟩ + al * new ⟨6 + 3 + d.val, by omega⟩) a
  refine ⟨b, ?_⟩
  rw [← hb]
  unfold updateInterpolated
  simp only [decide_eq_true_eq]

lemma subSolve_some (hL : ∀ tag, Functional (Y.layers tag) ok (p tag)) (hp : Ends p) (t dt : ℝ) (inp : Nat → ℝ) (ev : Ev σ ℝ)
    (hf : AllFit Y dt ev.states) (hok : ∀ tag, ok (ev.ws tag).inner) (hc : (ev.cp.getD []).length = ev.states.length) (ht : t - ev.base ≤ dt) :
    ∃ q e, subSolve Y t inp ev = some (q, e) := by
  unfold subSolve
  cases hR : Y.sgbcRows with
  | none => exact ⟨_, _, rfl⟩
  | some rows =>
    obtain ⟨r, er, fr⟩ := restore_some ev.states (ev.cp.getD []) hc
    have hfr := AllFit.frame fr hf
    obtain ⟨q, eq⟩ := allQuiet_some inp r hfr
    simp only [er, eq, Option.bind_eq_bind, Option.bind_some]
    split_ifs with hd
    · have hpos : 0 < t - ev.base := lt_trans (by norm_num) hd.2
      obtain ⟨ws, r', e⟩ := serial_some hL hp (multJob Y ev.base (t - ev.base) inp) r (fun st hst => by
        obtain ⟨ss, es⟩ := subSteps_some (Fits.shorter ht (hfr st hst)) ev.base
        obtain ⟨q, eq⟩ := isQuiet_some (hfr st hst) inp
        have hj : multJob Y ev.base (t - ev.base) inp st = some ⟨q, ss, fun _ => updateFromGlobal (Y.layers st.tag).n (Y.layers st.tag).G Y.ndofs inp st.pair st.rot⟩ := by
          unfold multJob
          rw [es, eq]
          rfl
        refine ⟨_, hj, multJob_pos Y _ _ hpos inp st _ hj, fun s a => ?_⟩
        have := (hfr st hst).ghosts
        obtain ⟨b, hb, -⟩ := C28_ghosts_from_fields (Y.layers st.tag).n (Y.layers st.tag).G Y.ndofs (by omega) inp st.pair
          (hfr st hst).first (hfr st hst).second st.rot a
        exact ⟨b, hb⟩) ev.ws hok
      rw [e]
      exact ⟨_, _, rfl⟩
    · exact ⟨_, _, rfl⟩

lemma copy_some {n : Int} (h : 0 ≤ n ∧ n < Y.ndofs) (inp : Nat → ℝ) :
    ∃ w, copyWrites Y inp n n = some w ∧ ∀ x ∈ w, 0 ≤ x.1 ∧ x.1 < ((6 * Y.B : Nat) : Int) := by
  unfold copyWrites
  rw [read3_some inp 0 (Or.inl rfl) h, read3_some inp 3 (Or.inr rfl) h]
  exact ⟨_, rfl, side_range h.1 (by have := h.2; unfold Sys.B; push_cast; omega) _ _⟩

lemma fill_some {n m : Int} (h : 0 ≤ n ∧ n < Y.ndofs) (h' : 0 ≤ m ∧ m < Y.ndofs) (inp : Nat → ℝ) (bdr : Face) (st : St ℝ) (idx : Int)
    (hi : 0 ≤ idx ∧ idx < (Y.layers st.tag).n) :
    ∃ w, fillWrites Y bdr inp n m st idx = some w ∧ ∀ x ∈ w, 0 ≤ x.1 ∧ x.1 < ((6 * Y.B : Nat) : Int) := by
  have hm : m < (Y.B : Int) := by have := h'.2; unfold Sys.B; push_cast; omega
  unfold fillWrites
  rw [read3_some inp 0 (Or.inl rfl) h, read3_some inp 3 (Or.inr rfl) h, read3_some st.fields 0 (Or.inl rfl) hi, read3_some st.fields 3 (Or.inr rfl) hi]
  cases bdr <;> exact ⟨_, rfl, side_range h'.1 hm _ _⟩

lemma pass1_some {dt : ℝ} {st : St ℝ} (h : Fits Y dt st) (inp : Nat → ℝ) :
    ∃ w, pass1 Y inp st = some w ∧ ∀ x ∈ w, 0 ≤ x.1 ∧ x.1 < ((6 * Y.B : Nat) : Int) := by
  obtain ⟨a, ea, ra⟩ := copy_some h.first inp
  unfold pass1
  rw [ea]
  by_cases hp : st.pair.2 = -1
  · exact ⟨a, by simp [hp], ra⟩
  · have := h.ghosts
    obtain ⟨b, eb, rb⟩ := fill_some h.first (h.second hp) inp (Y.layers st.tag).left st (SgbcEvol.leftIndex (Y.layers st.tag)) (by unfold SgbcEvol.leftIndex; omega)
    refine ⟨a ++ b, by simp [hp, eb], fun x hx => ?_⟩
    rcases List.mem_append.1 hx with hx | hx
    · exact ra x hx
    · exact rb x hx

lemma pass2_some {dt : ℝ} {st : St ℝ} (h : Fits Y dt st) (inp : Nat → ℝ) :
    ∃ w, pass2 Y inp st = some w ∧ ∀ x ∈ w, 0 ≤ x.1 ∧ x.1 < ((6 * Y.B : Nat) : Int) := by
  unfold pass2
  by_cases hp : st.pair.2 = -1
  · exact ⟨[], by simp [hp], by simp⟩
  · have := h.ghosts
    obtain ⟨a, ea, ra⟩ := fill_some (h.second hp) h.first inp (Y.layers st.tag).right st (SgbcEvol.rightIndex (Y.layers st.tag)) (by unfold SgbcEvol.rightIndex; omega)
    obtain ⟨b, eb, rb⟩ := copy_some (h.second hp) inp
    refine ⟨a ++ b, by simp [hp, ea, eb], fun x hx => ?_⟩
    rcases List.mem_append.1 hx with hx | hx
    · exact ra x hx
    · exact rb x hx

lemma passWrites_some (f : St ℝ → Option (List (Int × ℝ))) (m : Int) : ∀ l : List (St ℝ),
    (∀ st ∈ l, ∃ w, f st = some w ∧ ∀ x ∈ w, 0 ≤ x.1 ∧ x.1 < m) → ∃ w, passWrites f l = some w ∧ ∀ x ∈ w, 0 ≤ x.1 ∧ x.1 < m
  | [], _ => ⟨[], rfl, by simp⟩
  | st :: l, h => by
    obtain ⟨a, ea, ra⟩ := h st (by simp)
    obtain ⟨b, eb, rb⟩ := passWrites_some f m l fun s hs => h s (by simp [hs])
    refine ⟨a ++ b, by simp [passWrites, ea, eb], fun x hx => ?_⟩
    rcases List.mem_append.1 hx with hx | hx
    · exact ra x hx
    · exact rb x hx

lemma clear_range {dt : ℝ} {st : St ℝ} (h : Fits Y dt st) : (∀ x ∈ clear1 Y st, 0 ≤ x.1 ∧ x.1 < ((6 * Y.B : Nat) : Int)) ∧
    ∀ x ∈ clear2 Y st, 0 ≤ x.1 ∧ x.1 < ((6 * Y.B : Nat) : Int) := by
  have r1 := side_range (B := Y.B) h.first.1 (by have := h.first.2; unfold Sys.B; push_cast; omega) (0 : Fin 3 → ℝ) 0
  have r2 : st.pair.2 ≠ -1 → ∀ x ∈ sideWrites Y.B 1 (fun _ => st.pair.2) (0 : Fin 3 → ℝ) 0, 0 ≤ x.1 ∧ x.1 < ((6 * Y.B : Nat) : Int) := fun hp =>
    side_range (B := Y.B) (h.second hp).1 (by have := (h.second hp).2; unfold Sys.B; push_cast; omega) (0 : Fin 3 → ℝ) 0
  constructor <;> intro x hx
  · unfold clear1 at hx
    rcases List.mem_append.1 hx with hx | hx
    · exact r1 x hx
    · split_ifs at hx with hp
      · exact r2 hp x hx
      · simp at hx
  · unfold clear2 at hx
    split_ifs at hx with hp
    · simp at hx
    · rcases List.mem_append.1 hx with hx | hx
      · exact r1 x hx
      · exact r2 hp x hx

lemma inject_some {dt : ℝ} {l : List (St ℝ)} (h : AllFit Y dt l) (rows : Rows ℝ) (inp out w : Nat → ℝ) :
    ∃ r, inject Y rows inp l out w = some r := by
  obtain ⟨a, ea, ra⟩ := passWrites_some (pass1 Y inp) _ l fun st hst => pass1_some (h st hst) inp
  obtain ⟨b, eb, rb⟩ := passWrites_some (pass2 Y inp) _ l fun st hst => pass2_some (h st hst) inp
  have c1 : ∀ x ∈ l.flatMap (clear1 Y), 0 ≤ x.1 ∧ x.1 < ((6 * Y.B : Nat) : Int) := fun x hx => by
    obtain ⟨st, hst, hx⟩ := List.mem_flatMap.1 hx
    exact (clear_range (h st hst)).1 x hx
  have c2 : ∀ x ∈ l.flatMap (clear2 Y), 0 ≤ x.1 ∧ x.1 < ((6 * Y.B : Nat) : Int) := fun x hx => by
    obtain ⟨st, hst, hx⟩ := List.mem_flatMap.1 hx
    exact (clear_range (h st hst)).2 x hx
  unfold inject
  obtain ⟨w1, e1⟩ := exec_completes (6 * Y.B) a w ra
  obtain ⟨w2, e2⟩ := exec_completes (6 * Y.B) _ w1 c1
  obtain ⟨w3, e3⟩ := exec_completes (6 * Y.B) b w2 rb
  obtain ⟨w4, e4⟩ := exec_completes (6 * Y.B) _ w3 c2
  simp only [ea, eb, e1, e2, e3, e4, Option.bind_eq_bind, Option.bind_some]
  exact ⟨_, rfl⟩

lemma tfsf_some (hE : Enters Y) (t : ℝ) (out : Nat → ℝ) (sc : Option (Nat → ℝ)) : ∃ r, applyTfsf Y t out sc = some r := by
  unfold applyTfsf
  cases hT : Y.tfsf with
  | none => exact ⟨_, rfl⟩
  | some T =>
    simp only
    split_ifs
    · exact ⟨_, rfl⟩
    · obtain ⟨b, e⟩ := exec_completes (6 * Y.B) (scatterWrites Y.B T t) (sc.getD fun _ => 0) fun x hx => by
        unfold scatterWrites at hx
        obtain ⟨v, hv, hx⟩ := List.mem_flatMap.1 hx
        have hv : v < T.ids.length := List.mem_range.1 hv
        have hi := hE T hT (T.ids.getD v 0) (by
          rw [List.getD_eq_getElem?_getD, List.getElem?_eq_getElem hv]
          exact List.getElem_mem hv)
        exact side_range hi.1 hi.2 _ _ x hx
      rw [e]
      exact ⟨_, rfl⟩

lemma rhs_some (hE : Enters Y) {dt : ℝ} {l : List (St ℝ)} (h : AllFit Y dt l) (t : ℝ) (inp junk : Nat → ℝ) (q : Bool) (sc : Option (Nat → ℝ)) :
    ∃ r, rhs Y t inp junk q l sc = some r := by
  unfold rhs
  obtain ⟨w, e⟩ := assemble_completes Y inp (sc.getD junk)
  obtain ⟨⟨o, s⟩, e'⟩ := tfsf_some hE t (mulRows Y.globalRows w) (some (zeroed (6 * Y.B) w))
  simp only [e, e', Option.bind_eq_bind, Option.bind_some]
  cases hR : Y.sgbcRows with
  | none => exact ⟨_, rfl⟩
  | some rows =>
    simp only
    split_ifs
    · exact ⟨_, rfl⟩
    · obtain ⟨⟨o', w'⟩, e⟩ := inject_some h rows inp o (s.getD junk)
      rw [e]
      exact ⟨_, rfl⟩

/-- An evolution object in the middle of a step of at most `dt` that began at `b`. -/
structure Going (Y : Sys σ ℝ) (ok : σ → Prop) (dt b : ℝ) (ev : Ev σ ℝ) : Prop where
  fit   : AllFit Y dt ev.states
  inner : ∀ tag, ok (ev.ws tag).inner
  held  : ev.states = [] ∨ (ev.cp.getD []).length = ev.states.length ∧ ev.base = b

lemma Going.keeps {dt b : ℝ} {ev e : Ev σ ℝ} (h : Going Y ok dt b ev) (k : Keeps ev e) (o : ∀ tag, ok (e.ws tag).inner) : Going Y ok dt b e := by
  refine ⟨AllFit.frame k.frames h.fit, o, ?_⟩
  have hl : e.states.length = ev.states.length := by simpa using congrArg List.length k.frames
  rcases h.held with h | ⟨h1, h2⟩
  · exact Or.inl (List.length_eq_zero_iff.1 (by rw [hl, h]; rfl))
  · exact Or.inr ⟨by rw [k.cp, hl]; exact h1, by rw [k.base]; exact h2⟩

lemma mult_some (hE : Enters Y) (hL : ∀ tag, Functional (Y.layers tag) ok (p tag)) (hp : Ends p) {dt b : ℝ} {ev : Ev σ ℝ} (h : Going Y ok dt b ev) (t : ℝ)
    (ht : t - b ≤ dt) (inp junk : Nat → ℝ) : ∃ out e, mult Y t inp junk ev = some (out, e) ∧ Going Y ok dt b e := by
  have hs : ∃ q e, subSolve Y t inp ev = some (q, e) := by
    rcases h.held with h0 | ⟨h1, h2⟩
    · exact ⟨_, _, Memory.subSolve_empty t inp ev h0⟩
    · exact subSolve_some hL hp t dt inp ev h.fit h.inner h1 (by rw [h2]; exact ht)
  obtain ⟨q, e, hs⟩ := hs
  obtain ⟨k, o, -⟩ := subSolve_keeps hL h.inner hs
  obtain ⟨⟨out, sc⟩, hr⟩ := rhs_some hE (AllFit.frame k.frames h.fit) t inp junk q e.scratch
  have hm : mult Y t inp junk ev = some (out, { e with scratch := sc }) := by
    unfold mult
    simp only [hs, hr, Option.bind_eq_bind, Option.bind_some]
  obtain ⟨k', o'⟩ := LayerStep.mult_keeps hL h.inner hm
  exact ⟨out, _, hm, h.keeps k' o'⟩

lemma rk4_some (hE : Enters Y) (hL : ∀ tag, Functional (Y.layers tag) ok (p tag)) (hp : Ends p) {dt : ℝ} {ev : Ev σ ℝ} (t h : ℝ) (h0 : 0 ≤ h) (hh : h ≤ dt)
    (g : Going Y ok dt t ev) (x junk : Nat → ℝ) : ∃ y e, SimLayer.rk4 Y junk x t h ev = some (y, t + h, e) ∧ Going Y ok dt t e := by
  unfold SimLayer.rk4
  obtain ⟨k1, e1, a, g1⟩ := mult_some hE hL hp g t (by linarith) x junk
  obtain ⟨k2, e2, b, g2⟩ := mult_some hE hL hp g1 (t + h / 2) (by linarith) (x + (h / 2) • k1) junk
  obtain ⟨k3, e3, c, g3⟩ := mult_some hE hL hp g2 (t + h / 2) (by linarith) (x + (h / 2) • k2) junk
  obtain ⟨k4, e4, d, g4⟩ := mult_some hE hL hp g3 (t + h) (by linarith) (x + h • k3) junk
  simp only [a, b, c, d, Option.bind_eq_bind, Option.bind_some]
  exact ⟨_, e4, rfl, g4⟩

lemma advanced_frames {x y : Nat → ℝ} {t h : ℝ} {l l' : List (St ℝ)} (H : List.Forall₂ (LayerStep.Spec.Advanced Y p x y t h) l l') :
    l'.map frame = l.map frame := by
  induction H with
  | nil => rfl
  | cons a _ ih => simp [ih, frame, a.1, a.2.1, a.2.2.1]

lemma step_some (hE : Enters Y) (hL : ∀ tag, Functional (Y.layers tag) ok (p tag)) (hp : Ends p) {dt : ℝ} {ev : Ev σ ℝ} (t h : ℝ) (h0 : 0 < h) (hh : h ≤ dt)
    (hf : AllFit Y dt ev.states) (hok : ∀ tag, ok (ev.ws tag).inner) (x junk : Nat → ℝ) :
    ∃ y e, SimLayer.advance Y junk x t h ev = some (y, t + h, e) ∧ AllFit Y dt e.states ∧ ∀ tag, ok (e.ws tag).inner := by
  by_cases he : ev.states = []
  · obtain ⟨y, e, a, g⟩ := rk4_some hE hL hp t h h0.le hh ⟨hf, hok, Or.inl he⟩ x junk
    refine ⟨y, e, ?_, g.fit, g.inner⟩
    unfold SimLayer.advance
    rw [if_pos (by simp [he]), a]
  · obtain ⟨cs, ec, nc⟩ := commitAll_some x ev.states ((ev.cp.getD []).map Cp.ghostOld) hf
    obtain ⟨y, e, a, g⟩ := rk4_some (ev := { ev with base := t, dt := h, cp := some cs }) hE hL hp t h h0.le hh ⟨hf, hok, Or.inr ⟨nc, rfl⟩⟩ x junk
    obtain ⟨-, k, -⟩ := LayerStep.rk4_keeps (ev := { ev with base := t, dt := h, cp := some cs }) hL hok a
    have hl : e.states.length = ev.states.length := by simpa using congrArg List.length k.frames
    obtain ⟨r, er, fr⟩ := finalRestore_some y e.states (e.cp.getD []) g.fit (by rw [k.cp, hl]; exact nc)
    have gr := AllFit.frame fr g.fit
    obtain ⟨q, eq⟩ := allQuiet_some y r gr
    have hfin : ∃ e', finalize Y y e = some e' := by
      unfold finalize
      simp only [er, eq, Option.bind_eq_bind, Option.bind_some]
      split_ifs
      · exact ⟨_, rfl⟩
      · obtain ⟨ws, r', es⟩ := serial_some hL hp (finalJob Y e.base e.dt) r (fun st hst => by
          obtain ⟨ss, es⟩ := subSteps_some (Fits.shorter hh (gr st hst)) e.base
          have hd : e.dt = h := k.dt
          have hj : finalJob Y e.base e.dt st = some ⟨false, ss, fun s =>
              updateInterpolated (Y.layers st.tag).n (Y.layers st.tag).G s.alpha st.pair st.ghostOld st.ghostNew⟩ := by
            unfold finalJob
            rw [hd, es]
            rfl
          exact ⟨_, hj, finalJob_pos Y _ _ (by rw [hd]; exact h0) st _ hj, fun s a => interp_some (gr st hst) _ _ _ a⟩) e.ws g.inner
        rw [es]
        exact ⟨_, rfl⟩
    obtain ⟨e', ef⟩ := hfin
    have hadv : SimLayer.advance Y junk x t h ev = some (y, t + h, e') := by
      unfold SimLayer.advance
      rw [if_neg (by simpa using he)]
      simp only [commit, ec, a, ef, Option.bind_eq_bind, Option.bind_some]
    refine ⟨y, e', hadv, ?_, Memory.finalize_ok hL (by rw [k.dt]; exact h0) g.inner ef⟩
    have key := (LayerStep.C191_layer_step hL x y junk t h (t + h) h0 ev e' hok he hadv).2
    refine AllFit.frame ?_ hf
    rcases key with ⟨-, c⟩ | ⟨-, c⟩
    · rw [Memory.map_frame, c, ← Memory.map_frame]
    · exact advanced_frames c

/-- A simulation that can go on. -/
structure Sound (Y : Sys σ ℝ) (ok : σ → Prop) (dt final : ℝ) (s : Sim (Nat → ℝ) (Ev σ ℝ) R) : Prop where
  fit    : AllFit Y dt s.cache.states
  inner  : ∀ tag, ok (s.cache.ws tag).inner
  probes : ∀ p ∈ s.probes, p.steps ≠ 0
  time   : s.time ≤ final

lemma going_on (hE : Enters Y) (hL : ∀ tag, Functional (Y.layers tag) ok (p tag)) (hp : Ends p) (junk : Nat → ℝ) (dt final : ℝ) (hdt : 0 < dt)
    (s : Sim (Nat → ℝ) (Ev σ ℝ) R) (h : Sound Y ok dt final s) (hk : keepGoing dt final s.time = true) :
    ∃ s', stepWith (SimLayer.advance Y junk) dt final s = some s' ∧ Sound Y ok dt final s' ∧ s'.time = s.time + trueDt dt final s.time := by
  have hpos : 0 < trueDt dt final s.time := by
    simp only [keepGoing, decide_eq_true_eq] at hk
    have := mul_pos Longer.slack_pos hdt
    exact lt_min hdt (by linarith)
  obtain ⟨y, e, a, f, o⟩ := step_some hE hL hp s.time (trueDt dt final s.time) hpos (min_le_left _ _) h.fit h.inner s.fields junk
  have hu := updateProbes_some final { s with time := s.time + trueDt dt final s.time, fields := y, cache := e } h.probes
  refine ⟨_, by unfold stepWith; rw [a]; exact hu, ⟨f, o, map_next_ne h.probes, ?_⟩, rfl⟩
  · have : trueDt dt final s.time ≤ final - s.time := min_le_right _ _
    show s.time + trueDt dt final s.time ≤ final
    linarith

lemma run_ends (hE : Enters Y) (hL : ∀ tag, Functional (Y.layers tag) ok (p tag)) (hp : Ends p) (junk : Nat → ℝ) (dt final : ℝ) (hdt : 0 < dt) :
    ∀ (n fuel : Nat) (s : Sim (Nat → ℝ) (Ev σ ℝ) R), n ≤ fuel → final - s.time ≤ n * dt → Sound Y ok dt final s →
    ∃ r, SimLayer.run Y junk dt final fuel s = .done r ∧ Sound Y ok dt final r ∧ final - slack * dt < r.time := by
  have hstop : ∀ (fuel : Nat) (s : Sim (Nat → ℝ) (Ev σ ℝ) R), ¬ keepGoing dt final s.time = true →
      SimLayer.run Y junk dt final fuel s = .done s := by
    intro fuel s h
    unfold SimLayer.run runWith
    rw [if_neg h]
  have hlate : ∀ s : Sim (Nat → ℝ) (Ev σ ℝ) R, ¬ keepGoing dt final s.time = true → final - slack * dt < s.time := by
    intro s h
    simpa only [keepGoing, decide_eq_true_eq, not_le] using h
  intro n
  induction n with
  | zero =>
    intro fuel s _ ht h
    have hk : ¬ keepGoing dt final s.time = true := by
      simp only [keepGoing, decide_eq_true_eq, not_le]
      have := mul_pos Longer.slack_pos hdt
      norm_num at ht
      linarith
    exact ⟨s, hstop fuel s hk, h, hlate s hk⟩
  | succ n ih =>
    intro fuel s hf ht h
    by_cases hk : keepGoing dt final s.time = true
    · obtain ⟨k, rfl⟩ : ∃ k, fuel = k + 1 := ⟨fuel - 1, by omega⟩
      obtain ⟨s', e, i, t⟩ := going_on hE hL hp junk dt final hdt s h hk
      obtain ⟨r, hr, hi⟩ := ih k s' (by omega) (by
        rw [t]
        unfold trueDt
        have : (0 : ℝ) ≤ n * dt := by positivity
        push_cast at ht
        rcases min_choice dt (final - s.time) with e | e <;> rw [e] <;> linarith) i
      refine ⟨r, ?_, hi⟩
      unfold SimLayer.run runWith
      rw [if_pos hk]
      simp only [e]
      exact hr
    · exact ⟨s, hstop fuel s hk, h, hlate s hk⟩

/-- **C192.** Take a case with any number of thin layers that fit their nodes and their steps, an incident field that enters
at nodes, and inner integrators that always end.  Then the run comes to its end: it never reads or writes out of range,
never misses a checkpoint and never runs for ever, whatever the fields and whatever memory contained; at its end the time is
within 1e-8 steps of the final time and not beyond. -/
theorem C192_finishes (hE : Enters Y) (hL : ∀ tag, Functional (Y.layers tag) ok (p tag)) (hp : Ends p) (lobatto : Nat → List ℝ)
    (m : TimeStep.Setup) (opts : TimeStep.Options) (hT : 0 ≤ opts.finalTime) (x : Nat → ℝ) (ev : Ev σ ℝ) (hok : ∀ tag, ok (ev.ws tag).inner)
    (ps : List (Probe (Nat → ℝ) R)) (hps : Usable ps) (dt : ℝ) (hdt : 0 < dt) (hf : ∀ st ∈ ev.states, Fits Y dt st) (ode : TimeInt.Ode)
    (s : Sim (Nat → ℝ) (Ev σ ℝ) R) (h : construct lobatto m opts x ev ps = .ok (dt, ode, s)) (junk : Nat → ℝ) :
    ∃ N, ∀ fuel, N ≤ fuel → ∃ r, SimLayer.run Y junk dt opts.finalTime fuel s = .done r ∧
      opts.finalTime - 1 / 10 ^ 8 * dt < r.time ∧ r.time ≤ opts.finalTime := by
  have hs : Sound Y ok dt opts.finalTime s := by
    unfold construct at h
    simp only [bind, Except.bind] at h
    split at h
    · exact absurd h (by simp)
    · rename_i y _
      split at h
      · exact absurd h (by simp)
      · split at h
        · exact absurd h (by simp)
        · rename_i s0 hu
          simp only [Except.ok.injEq, Prod.mk.injEq] at h
          obtain ⟨hy, -, rfl⟩ := h
          rw [hy] at hu
          have hn := interval_ne (final := opts.finalTime) hdt hps
          rw [updateProbes_some opts.finalTime ⟨0, x, ev, 0, ps.map (recalculate opts.finalTime dt)⟩ hn] at hu
          rw [← Option.some.inj hu]
          exact ⟨hf, hok, map_next_ne hn, hT⟩
  obtain ⟨n, hn⟩ := exists_nat_ge ((opts.finalTime - s.time) / dt)
  refine ⟨n, fun fuel hfu => ?_⟩
  obtain ⟨r, e, i, l⟩ := run_ends hE hL hp junk dt opts.finalTime hdt n fuel s hfu ((div_le_iff₀ hdt).1 hn) hs
  refine ⟨r, e, ?_, i.time⟩
  have : (slack : ℝ) = 1 / 10 ^ 8 := by unfold slack; norm_num
  rw [← this]
  exact l

/-- A layer of three nodes between the two nodes of a domain, with incident field at the second; its inner integrator, which takes sub-steps of
at most 1/4, doubles the fields. -/
noncomputable def exSys : Sys Unit ℝ where
  ndofs := 2
  nbr := 0
  layers := fun _ => ⟨3, 1, 1 / 4, .slab, .PEC, fun _ x _ _ => some (fun k => 2 * x k, ())⟩
  globalRows := fun r => if r < 12 then [(11 - r, 3)] else []
  tfsf := some ⟨[1], fun t _ _ => t, fun _ => [(1, 1)]⟩
  sgbcRows := some fun r => if r < 12 then [(r, 1)] else []
  elem1 := [0]
  elem2 := [1]
  nbrData := fun _ _ _ => 0

/-- It is not empty. -/
noncomputable def exEv : Ev Unit ℝ := ⟨[⟨7, (0, 1), fun _ => 1, fun k => k, fun _ => 0, fun _ => 0⟩], none, 0, 0, fun _ => ⟨(), fun _ => 9⟩, none⟩

lemma exSys_ok : Enters exSys ∧ (∀ tag, Functional (exSys.layers tag) (fun _ => True) fun x _ _ => some fun k => 2 * x k) ∧
    Ends (fun _ x _ _ => some fun k => 2 * x k) ∧ ∀ st ∈ exEv.states, Fits exSys 1 st := by
  refine ⟨?_, fun tag => ⟨fun s x t d _ _ => Or.inr ⟨_, _, rfl, rfl, trivial⟩⟩, fun _ x _ _ _ => ⟨_, rfl⟩, ?_⟩
  · intro T hT i hi
    simp only [exSys, Option.some.injEq] at hT
    subst hT
    obtain rfl := List.mem_singleton.1 hi
    simp [exSys, Sys.B]
  · intro st hst
    obtain rfl := List.mem_singleton.1 hst
    exact ⟨by simp [exSys], fun _ => by simp [exSys], by simp [exSys], fun _ => by norm_num [exSys]⟩

lemma ex_loud (y : Nat → ℝ) : ¬ ∀ st ∈ exEv.states, LayerStep.Spec.Quiet exSys y st := by
  intro h
  have := (h _ (List.mem_singleton.2 rfl)).1
  simp only [normSq, exSys] at this
  norm_num [List.range_succ] at this

/-- C191 applies to it, and its layer goes through the step. -/
example (x junk : Nat → ℝ) : ∃ y ev', SimLayer.advance exSys junk x 5 1 exEv = some (y, 5 + 1, ev') ∧
    List.Forall₂ (LayerStep.Spec.Advanced exSys (fun _ x _ _ => some fun k => 2 * x k) x y 5 1) exEv.states ev'.states := by
  obtain ⟨hE, hL, hp, hf⟩ := exSys_ok
  obtain ⟨y, e, a, -, -⟩ := step_some (ev := exEv) hE hL hp 5 1 one_pos le_rfl hf (fun _ => trivial) x junk
  rcases (LayerStep.C191_layer_step hL x y junk 5 1 _ one_pos exEv e (fun _ => trivial) (by simp [exEv]) a).2 with ⟨h, -⟩ | ⟨-, h⟩
  · exact absurd h (ex_loud y)
  · exact ⟨y, e, a, h⟩

/-- C192 applies to it, with final time 5 and steps of length 1. -/
example (lobatto : Nat → List ℝ) (m : TimeStep.Setup) (junk : Nat → ℝ) : ∃ s : Sim (Nat → ℝ) (Ev Unit ℝ) ℝ,
    construct lobatto m ⟨1, 5, 1, 0, .global, 0⟩ (fun k : Nat => (k : ℝ)) exEv [AtRest.exProbe] = .ok (1, .rk4, s) ∧
    ∃ N, ∀ fuel, N ≤ fuel → ∃ r, SimLayer.run exSys junk 1 5 fuel s = .done r ∧ 5 - 1 / 10 ^ 8 * 1 < r.time ∧ r.time ≤ 5 := by
  obtain ⟨hE, hL, hp, hf⟩ := exSys_ok
  have hv : TimeStep.construct (TimeStep.estimateTimeStep lobatto m) ⟨1, 5, 1, 0, .global, 0⟩ 0 = .ok (1, 0) := by
    unfold TimeStep.construct TimeStep.checkOptions TimeStep.assignOde
    norm_num [bind, Except.bind, pure, Except.pure]
  have hc : ∃ s : Sim (Nat → ℝ) (Ev Unit ℝ) ℝ,
      construct lobatto m ⟨1, 5, 1, 0, .global, 0⟩ (fun k : Nat => (k : ℝ)) exEv [AtRest.exProbe] = .ok (1, .rk4, s) := by
    unfold construct
    rw [hv]
    simp only [bind, Except.bind, TimeInt.assignOde]
    rw [updateProbes_some 5 ⟨0, (fun k : Nat => (k : ℝ)), exEv, 0, [AtRest.exProbe].map (recalculate 5 1)⟩ (by simp [AtRest.exProbe, recalculate])]
    exact ⟨_, rfl⟩
  obtain ⟨s, h⟩ := hc
  exact ⟨s, h, C192_finishes hE hL hp lobatto m _ (by norm_num) _ exEv (fun _ => trivial) _ (by simp [Usable, AtRest.exProbe]) 1 one_pos hf _ s h junk⟩

end Dgtd.Finish
