/-
`std::map` used as a dictionary, modelled as an association list without order.

Only the operations the code uses are modelled: `insert`/`emplace` (keep the old value when the key is
already present), `operator[]=` (overwrite) and `find`/`at`.
-/
namespace Dgtd.Assoc

variable {α β : Type} [DecidableEq α]

/-- `m.find(k)` / `m.at(k)`: the value stored for `k`, `none` when absent.
(src/components/Model.cpp:200-240, src/evolution/GlobalEvolution.cpp:318, 440, 527, 652) -/
def find (m : List (α × β)) (k : α) : Option β :=
  match m with
  | [] => none
  | (k', v) :: r => if k' = k then some v else find r k

/-- `m.insert({k, v})` and `m.emplace(k, v)`: no effect when the key is present.
(src/components/Model.cpp:62, 81-117; src/driver/driver.cpp:965, 982, 1026-1047) -/
def insert (m : List (α × β)) (k : α) (v : β) : List (α × β) :=
  match find m k with
  | some _ => m
  | none => m ++ [(k, v)]

/-- `m[k] = v`. (src/components/RCSSurfacePostProcessor.cpp:205-214) -/
def assign (m : List (α × β)) (k : α) (v : β) : List (α × β) :=
  match m with
  | [] => [(k, v)]
  | (k', v') :: r => if k' = k then (k, v) :: r else (k', v') :: assign r k v

theorem find_append (m m' : List (α × β)) (k : α) :
    find (m ++ m') k = (find m k).or (find m' k) := by
  induction m with
  | nil => simp [find]
  | cons p r ih =>
    obtain ⟨a, b⟩ := p
    by_cases h : a = k <;> simp [find, h, ih]

theorem find_insert (m : List (α × β)) (k k' : α) (v : β) :
    find (insert m k v) k' = if k' = k then (find m k).or (some v) else find m k' := by
  unfold insert
  cases hk : find m k with
  | some w =>
    by_cases h : k' = k
    · subst h; simp [hk]
    · simp [h]
  | none =>
    by_cases h : k' = k
    · subst h; simp [find_append, hk, find]
    · simp [find_append, find, h, Ne.symm h]

theorem find_assign (m : List (α × β)) (k k' : α) (v : β) :
    find (assign m k v) k' = if k' = k then some v else find m k' := by
  induction m with
  | nil =>
    by_cases h : k' = k
    · simp [assign, find, h]
    · simp [assign, find, h, Ne.symm h]
  | cons p r ih =>
    obtain ⟨a, b⟩ := p
    by_cases h1 : a = k
    · subst h1
      by_cases h2 : k' = a
      · subst h2; simp [assign, find]
      · simp [assign, find, h2, Ne.symm h2]
    · by_cases h2 : k' = k
      · subst h2; simp [assign, find, h1, ih]
      · by_cases h3 : a = k' <;> simp [assign, find, h1, h2, h3, ih]

end Dgtd.Assoc
