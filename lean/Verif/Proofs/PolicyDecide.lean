import Verif.Proofs.Policy

/-!
# Deciding the specification of access policies

On a given policy and a given access policy the relations of `Verif.Spec.Policy` can be computed.
-/

namespace Abe

/-- The attributes registered in a policy. -/
def Policy.knownList (p : Policy) : List Attribute :=
  p.axes.flatMap fun x => match hget p.axes x.1 with
    | some (list, _) => list.map fun n => ⟨x.1, n⟩
    | none => []

theorem Policy.mem_knownList {p : Policy} {b : Attribute} : b ∈ p.knownList ↔ p.Known b := by
  unfold Policy.knownList Policy.Known
  rw [List.mem_flatMap]
  constructor
  · rintro ⟨x, hx, hb⟩
    split at hb
    · rename_i list h hg
      obtain ⟨n, hn, rfl⟩ := List.mem_map.1 hb
      exact ⟨list, h, hg, hn⟩
    · simp at hb
  · rintro ⟨list, h, hg, hn⟩
    refine ⟨_, hget_mem hg, ?_⟩
    simp only [hg]
    exact List.mem_map.2 ⟨b.name, hn, rfl⟩

instance (p : Policy) (b : Attribute) : Decidable (p.Known b) := decidable_of_iff _ p.mem_knownList

/-- The attributes granted by an attribute. -/
def Policy.coversList (p : Policy) (a : Attribute) : List Attribute :=
  match hget p.axes a.axis with
  | some (list, h) =>
    if a.name ∈ list then a :: if h then (list.takeWhile (· != a.name)).map fun n => ⟨a.axis, n⟩ else [] else []
  | none => []

theorem takeWhile_split {α : Type} [DecidableEq α] {below above : List α} {a : α} (h : a ∉ below) :
    (below ++ a :: above).takeWhile (· != a) = below := by
  induction below with
  | nil => simp
  | cons x xs ih =>
    rw [List.mem_cons, not_or] at h
    rw [List.cons_append, List.takeWhile_cons, if_pos (by simpa using fun e => h.1 e.symm), ih h.2]

theorem exists_split {α : Type} [DecidableEq α] {l : List α} {a : α} (h : a ∈ l) : ∃ below above, l = below ++ a :: above ∧ a ∉ below := by
  induction l with
  | nil => simp at h
  | cons x xs ih =>
    by_cases e : a = x
    · exact ⟨[], xs, by rw [e]; rfl, by simp⟩
    · obtain ⟨b, c, h1, h2⟩ := ih ((List.mem_cons.1 h).resolve_left e)
      exact ⟨x :: b, c, by rw [h1]; rfl, by simp [e, h2]⟩

theorem Policy.mem_coversList {p : Policy} {a b : Attribute} : b ∈ p.coversList a ↔ p.Covers a b := by
  unfold Policy.coversList Policy.Covers
  constructor
  · intro hb
    split at hb
    · rename_i list h hg
      split at hb
      · rename_i hm
        obtain ⟨below, above, rfl, hn⟩ := exists_split hm
        refine ⟨below, above, h, hg, hn, ?_⟩
        rw [takeWhile_split hn, List.mem_cons] at hb
        rcases hb with rfl | hb
        · exact ⟨rfl, .inl rfl⟩
        · split at hb
          · rename_i ht
            obtain ⟨n, hn', rfl⟩ := List.mem_map.1 hb
            exact ⟨rfl, .inr ⟨ht, hn'⟩⟩
          · simp at hb
      · simp at hb
    · simp at hb
  · rintro ⟨below, above, h, hg, hn, hax, hb⟩
    rw [hg]
    simp only [List.mem_append, List.mem_cons, true_or, or_true, if_true, takeWhile_split hn]
    obtain ⟨bx, bn⟩ := b
    dsimp only at hax hb
    rcases hb with hb | ⟨rfl, hb⟩
    · exact .inl (by rw [hax, hb])
    · exact .inr (by rw [if_pos rfl]; exact List.mem_map.2 ⟨bn, hb, by rw [hax]⟩)

instance (p : Policy) (a b : Attribute) : Decidable (p.Covers a b) := decidable_of_iff _ p.mem_coversList

/-- The attributes granted by an access policy. -/
def AccessPolicy.grantsList (p : Policy) : AccessPolicy → List Attribute
  | .attr a => p.coversList a
  | .and l r => l.grantsList p ++ r.grantsList p
  | .or l r => l.grantsList p ++ r.grantsList p
  | .all => p.knownList

theorem AccessPolicy.mem_grantsList {p : Policy} {b : Attribute} : ∀ {ap : AccessPolicy}, b ∈ ap.grantsList p ↔ ap.Grants p b
  | .attr _ => p.mem_coversList
  | .and _ _ => List.mem_append.trans (or_congr mem_grantsList mem_grantsList)
  | .or _ _ => List.mem_append.trans (or_congr mem_grantsList mem_grantsList)
  | .all => p.mem_knownList

instance (p : Policy) (b : Attribute) (ap : AccessPolicy) : Decidable (ap.Grants p b) := decidable_of_iff _ AccessPolicy.mem_grantsList

/-- Satisfaction by a list of attributes. -/
def AccessPolicy.satList (p : Policy) (atts : List Attribute) : AccessPolicy → Bool
  | .attr a => atts.any fun b => decide (p.Covers a b)
  | .and l r => l.satList p atts && r.satList p atts
  | .or l r => l.satList p atts || r.satList p atts
  | .all => atts.any fun b => decide (p.Known b)

theorem AccessPolicy.satList_iff {p : Policy} {atts : List Attribute} : ∀ {ap : AccessPolicy}, ap.satList p atts = true ↔ ap.Sat p (· ∈ atts)
  | .attr a => by
    simp only [satList, Sat, List.any_eq_true, decide_eq_true_eq]
    exact exists_congr fun b => and_comm
  | .and l r => by simp only [satList, Sat, Bool.and_eq_true, satList_iff]
  | .or l r => by simp only [satList, Sat, Bool.or_eq_true, satList_iff]
  | .all => by
    simp only [satList, Sat, List.any_eq_true, decide_eq_true_eq]
    exact exists_congr fun b => and_comm

instance (p : Policy) (atts : List Attribute) (ap : AccessPolicy) : Decidable (ap.Sat p (· ∈ atts)) := decidable_of_iff _ AccessPolicy.satList_iff

/-- The mentioned attributes. -/
def AccessPolicy.mentionsList : AccessPolicy → List Attribute
  | .attr a => [a]
  | .and l r => l.mentionsList ++ r.mentionsList
  | .or l r => l.mentionsList ++ r.mentionsList
  | .all => []

theorem AccessPolicy.mem_mentionsList {a : Attribute} : ∀ {ap : AccessPolicy}, a ∈ ap.mentionsList ↔ ap.Mentions a
  | .attr _ => List.mem_singleton
  | .and _ _ => List.mem_append.trans (or_congr mem_mentionsList mem_mentionsList)
  | .or _ _ => List.mem_append.trans (or_congr mem_mentionsList mem_mentionsList)
  | .all => by simp [mentionsList, Mentions]

instance decidableNoAll : ∀ ap : AccessPolicy, Decidable ap.NoAll
  | .attr _ => isTrue trivial
  | .and l r => @instDecidableAnd _ _ (decidableNoAll l) (decidableNoAll r)
  | .or l r => @instDecidableAnd _ _ (decidableNoAll l) (decidableNoAll r)
  | .all => isFalse id

theorem disjoint_iff (p : Policy) (l r : AccessPolicy) : (∀ b ∈ l.grantsList p, b ∉ r.grantsList p) ↔ ∀ b, ¬ (l.Grants p b ∧ r.Grants p b) := by
  simp only [AccessPolicy.mem_grantsList, not_and]

instance decidableDisjoint (p : Policy) : ∀ ap : AccessPolicy, Decidable (ap.Disjoint p)
  | .attr _ => isTrue trivial
  | .and l r => @instDecidableAnd _ _ (decidableDisjoint p l) (@instDecidableAnd _ _ (decidableDisjoint p r) (decidable_of_iff _ (disjoint_iff p l r)))
  | .or l r => @instDecidableAnd _ _ (decidableDisjoint p l) (@instDecidableAnd _ _ (decidableDisjoint p r) (decidable_of_iff _ (disjoint_iff p l r)))
  | .all => isTrue trivial

theorem mentions_iff (p : Policy) (ap : AccessPolicy) : (∀ a ∈ ap.mentionsList, p.Known a) ↔ ∀ a, ap.Mentions a → p.Known a := by
  simp only [AccessPolicy.mem_mentionsList]

instance decidableValid (p : Policy) : ∀ ap : AccessPolicy, Decidable (ap.Valid p)
  | .attr a => @instDecidableAnd _ _ (decidableNoAll _) (@instDecidableAnd _ _ (decidable_of_iff _ (mentions_iff p (.attr a))) (decidableDisjoint p _))
  | .and l r => @instDecidableAnd _ _ (decidableNoAll _) (@instDecidableAnd _ _ (decidable_of_iff _ (mentions_iff p (.and l r))) (decidableDisjoint p _))
  | .or l r => @instDecidableAnd _ _ (decidableNoAll _) (@instDecidableAnd _ _ (decidable_of_iff _ (mentions_iff p (.or l r))) (decidableDisjoint p _))
  | .all => decidable_of_iff (∃ b ∈ p.knownList, p.Known b)
      ⟨fun ⟨b, _, h⟩ => ⟨b, h⟩, fun ⟨b, h⟩ => ⟨b, p.mem_knownList.2 h, h⟩⟩

instance (p : Policy) (a : Attribute) (v : UInt32) : Decidable (p.HasValue a v) :=
  decidable_of_iff (v ∈ (hget p.attributeToInt a).getD []) (by
    unfold Policy.HasValue
    cases hget p.attributeToInt a <;> simp)

end Abe
