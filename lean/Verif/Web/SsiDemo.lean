import Verif.Web.SsiProps

/-! A site that meets the hypotheses of C93 and C94. -/

namespace Verif.Web

theorem free_of {p s : Str} (h : cut p s = none) : Free p s := by
  rintro ⟨a, b, e⟩
  exact cut_none s h a b (by rw [e]; simp)

theorem clean_of {d : Str} (h1 : 10 ∉ d) (h2 : cut closing d = none) : Clean d := ⟨h1, free_of h2⟩

def condYes : Cond := ⟨[.negate], asc "yes"⟩
def condQ : Cond := ⟨[.queryFirst, .lax], asc "q"⟩

/-- `Hello <!--#if expr="${!yes}"-->⏎A<!--#elif expr="${~@q}"-->no<!--#else-->⏎⏎B<!--#include file="q.shtml"-->C<!--#endif-->!` -/
def pageP : Doc :=
  .cond (asc "Hello ") condYes (.text (asc "\nA"))
    (.elif condQ (.text (asc "no")) (.els (.item (asc "\n\nB") (.inc false (asc "q.shtml")) (.text (asc "C"))))) (.text (asc "!"))

/-- `(<!--#set word="${x}"--><!--#echo 'got ${word}'-->)` -/
def pageQ : Doc := .item (asc "(") (.set 34 (asc "word") (asc "x y")) (.item [] (.echoVar 39 (asc "got ") (asc "word") []) (.text (asc ")")))

def site1 (fn : Str) : Option Doc :=
  if fn = asc "/w/p.shtml" then some pageP else if fn = asc "/w//q.shtml" then some pageQ else none

def env1 : Env := ⟨asc "/w", false, none, asc "k", fun fn => (site1 fn).map Doc.render, fun x => decide (x = asc "shtml")⟩

theorem serves1 : Serves env1 site1 := by
  intro fn doc h
  refine ⟨by simp [env1, h], ?_⟩
  unfold site1 at h
  split at h
  · have := Option.some.inj h
    subst this
    refine ⟨?_, by decide, by decide +kernel⟩
    simp only [pageP, Doc.ok, Alt.ok]
    refine ⟨free_of (by decide +kernel), ⟨by decide +kernel, clean_of (by decide +kernel) (by decide +kernel), clean_of (by decide +kernel) (by decide +kernel)⟩,
      free_of (by decide +kernel), ⟨⟨by decide +kernel, clean_of (by decide +kernel) (by decide +kernel), clean_of (by decide +kernel) (by decide +kernel)⟩,
        free_of (by decide +kernel), free_of (by decide +kernel), ⟨by decide +kernel, by decide +kernel, clean_of (by decide +kernel) (by decide +kernel)⟩,
        free_of (by decide +kernel)⟩, free_of (by decide +kernel)⟩
  · split at h
    · have := Option.some.inj h
      subst this
      refine ⟨?_, by decide, by decide +kernel⟩
      simp only [pageQ, Doc.ok]
      refine ⟨free_of (by decide +kernel), ⟨Or.inl rfl, by decide +kernel, by decide +kernel, clean_of (by decide +kernel) (by decide +kernel)⟩,
        free_of (by decide +kernel), ⟨Or.inr rfl, free_of (by decide +kernel), by decide +kernel, clean_of (by decide +kernel) (by decide +kernel)⟩,
        free_of (by decide +kernel)⟩
    · cases h

theorem page1 : (page env1.root env1.query env1.key site1 env1.file env1.ssi 10 (asc "/w/p.shtml") data1).map (·.1) = some (asc "Hello \nB(got x y)C!") := by
  decide +kernel

example : (evalSSI env1 10 (asc "/w/p.shtml") data1).out = asc "Hello \nB(got x y)C!" := by
  have h := page1
  cases e : page env1.root env1.query env1.key site1 env1.file env1.ssi 10 (asc "/w/p.shtml") data1 with
  | none => rw [e] at h; cases h
  | some p =>
    rw [e] at h
    rw [C93_page_means_partial env1 site1 serves1 10 (asc "/w/p.shtml") data1 p.1 p.2 e]
    exact Option.some.inj h

/-- A page under every name that includes itself. -/
def envLoop : Env := ⟨asc "/w", false, none, [], fun _ => some (asc "ab<!--#include file=\"p.shtml\"-->"), fun _ => true⟩
def nameLoop : Nat → Str
  | 0 => asc "/w/p.shtml"
  | i+1 => sibling (asc "/w") (nameLoop i) (asc "p.shtml")

theorem lastCut_mem {c : UInt8} {s : Str} (h : c ∈ s) : (lastCut c s).isSome := by
  induction s with
  | nil => cases h
  | cons x s ih =>
    unfold lastCut
    cases e : lastCut c s with
    | some p => rfl
    | none =>
      have hx : x = c := by
        rcases List.mem_cons.mp h with h | h
        · exact h.symm
        · rw [e] at ih
          exact absurd (ih h) (by simp)
      simp [hx]

example : evalSSI envLoop 10 (asc "/w/p.shtml") none = ⟨.err, times 10 (asc "ab"), none⟩ := by
  refine C94_self_include envLoop rfl (asc "ab") (asc "p.shtml") nameLoop (free_of (by decide +kernel))
    ⟨by decide +kernel, by decide +kernel, clean_of (by decide +kernel) (by decide +kernel)⟩ (by decide +kernel) (fun _ => rfl) ?_ ?_ 10 0 none
  · intro i
    have h : (46 : UInt8) ∈ nameLoop i := by
      cases i with
      | zero => decide +kernel
      | succ i =>
        have : (46 : UInt8) ∈ asc "p.shtml" := by decide +kernel
        simp [nameLoop, sibling, this]
    have := lastCut_mem h
    unfold extOf
    cases e : lastCut 46 (nameLoop i) with
    | none => rw [e] at this; cases this
    | some p => rfl
  · intro i
    have : asc "ab<!--#include file=\"p.shtml\"-->" = asc "ab" ++ (tag (Item.inc false (asc "p.shtml")).render ++ []) := by decide +kernel
    simp [envLoop, this]

/-- A page without misspelt directives. -/
example : ¬ HasShort (one (asc "x<!--#include file=\"a\"-->")) := by
  rintro ⟨fn, t, a, d, b, h1, h2, h3⟩
  have ht : t = asc "x<!--#include file=\"a\"-->" := by
    simp only [one] at h1
    split at h1
    · exact (Option.some.inj h1).symm
    · cases h1
  have hl := congrArg List.length h2
  have hg : ∀ i, t[a.length + 5 + i]? = (d ++ (closing ++ b))[i]? := by
    intro i
    rw [h2]
    have : a ++ (tag d ++ b) = (a ++ opening) ++ (d ++ (closing ++ b)) := by simp [tag]
    rw [this, List.getElem?_append_right (by simp [opening])]
    congr 1
    simp [opening]
  have h0 : t.take (a.length + 5) = a ++ opening := by
    rw [h2]
    have : a ++ (tag d ++ b) = (a ++ opening) ++ (d ++ (closing ++ b)) := by simp [tag]
    rw [this]
    apply List.take_left'
    simp [opening]
  have hf := cut_opening (t := a) (x := d ++ (closing ++ b))
  have e : t = a ++ (opening ++ (d ++ (closing ++ b))) := by rw [h2]; simp [tag]
  cases hc : cut opening t with
  | none => exact cut_none t hc a _ e
  | some p =>
    have hp : p = (asc "x", asc "include file=\"a\"-->") := by
      rw [ht] at hc
      have : cut opening (asc "x<!--#include file=\"a\"-->") = some (asc "x", asc "include file=\"a\"-->") := by decide +kernel
      rw [this] at hc
      exact (Option.some.inj hc).symm
    have hmin := (cut_some t p.1 p.2 (by rw [hc])).2
    -- the opening occurs only once: at position 1
    have hx : a.length ≤ 21 := by
      rw [ht] at hl
      have : (asc "x<!--#include file=\"a\"-->").length = 25 := by decide +kernel
      rw [this] at hl
      simp [tag, opening, closing] at hl
      omega
    have h60 : t[a.length]? = some 60 := by
      rw [e, List.getElem?_append_right (Nat.le_refl _)]
      simp [opening]
    have ha1 : a.length = 1 := by
      rw [ht] at h60
      have key : ∀ n < 22, (asc "x<!--#include file=\"a\"-->")[n]? = some 60 → n = 1 := by decide +kernel
      exact key _ (by omega) h60
    have g (i : Nat) : t[6 + i]? = (d ++ (closing ++ b))[i]? := by
      have := hg i
      rw [ha1] at this
      exact this
    have g11 := (g 11).symm
    have g12 := (g 12).symm
    have k11 : t[6 + 11]? = some 101 := by rw [ht]; decide +kernel
    have k12 : t[6 + 12]? = some 61 := by rw [ht]; decide +kernel
    have k8 : t[6 + 8]? = some 102 := by rw [ht]; decide +kernel
    have g8 := (g 8).symm
    rw [k11] at g11
    rw [k12] at g12
    rw [k8] at g8
    rcases h3 with h | ⟨x, hx, h⟩ | h | ⟨x, hx, h⟩
    · rw [h, r_filq] at g11
      simp at g11
    · rw [h, r_fil] at g12
      simp at g12
    · rw [h, r_virtuaq] at g8
      simp at g8
    · rw [h, r_virtua] at g8
      simp at g8

end Verif.Web
