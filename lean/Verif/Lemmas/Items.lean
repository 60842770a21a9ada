import Verif.Lemmas.Dict

/-! Dictionaries made from items with distinct keys. -/

namespace Arti
namespace PyDict

theorem set_absent {κ ν : Type} [DecidableEq κ] (d : PyDict κ ν) (k : κ) (v : ν)
    (h : k ∉ keys d) : PyDict.set d k v = d ++ [(k, v)] := by
  induction d with
  | nil => rfl
  | cons p d ih =>
    obtain ⟨k', v'⟩ := p
    simp only [keys, List.map_cons, List.mem_cons, not_or] at h
    simp [PyDict.set, Ne.symm h.1, ih h.2]

theorem ofItems_nodup {κ ν : Type} [DecidableEq κ] {items : List (κ × ν)}
    (h : (keys items).Nodup) : ofItems items = items := by
  have key : ∀ (items d : PyDict κ ν), (keys (d ++ items)).Nodup →
      items.foldl (fun d kv => PyDict.set d kv.1 kv.2) d = d ++ items := by
    intro items
    induction items with
    | nil => intro d _; simp
    | cons p items ih =>
      intro d hn
      have hp : p.1 ∉ keys d := by
        simp only [keys, List.map_append, List.map_cons, List.nodup_append, List.mem_cons] at hn
        exact fun hm => hn.2.2 _ hm _ (.inl rfl) rfl
      rw [List.foldl_cons, set_absent _ _ _ hp, ih]
      · simp
      · simpa using hn
  have := key items [] (by simpa using h)
  simpa [ofItems] using this

end PyDict
end Arti
