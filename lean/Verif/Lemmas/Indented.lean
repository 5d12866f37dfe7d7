import Verif.Lemmas.JsonEnc
import Verif.Lemmas.JsonTreeParse
/- Indented text has the same tree as the text without indentation. -/
set_option autoImplicit false
namespace Verif.JsonStd
open JsonG Json

variable (F : FloatCodec) {pre ind : Bytes} (hp : WS pre) (hi : WS ind)
include hp hi

mutual
theorem spells_encP : ∀ (v : Val) (d : Nat), NumsOK F v → Spells (treeOf F v) (encP F pre ind d v)
  | .null, _, _ => .null
  | .bool true, _, _ => .true
  | .bool false, _, _ => .false
  | .int i, _, _ => .num _ (fmtInt_numeral i)
  | .gint i, _, _ => .num _ (fmtInt_numeral i)
  | .f64 x, _, h => .num _ h
  | .str s, _, _ => .str _ (strText_esc s)
  | .bytes s, _, _ => .str _ (strText_base64 s)
  | .arr [], _, _ => .arr0 [] ws_nil
  | .arr (v :: l), d, h => by
    have := Spells.arr _ _ (spellsL_encP (v :: l) (d + 1) h nofun (jsonNL pre ind (d + 1)) (jsonNL pre ind d) (ws_jsonNL hp hi _) (ws_jsonNL hp hi _))
    simpa [encP, treeOf, List.append_assoc] using this
  | .obj [], _, _ => .obj0 [] ws_nil
  | .obj (x :: m), d, h => by
    have := Spells.obj _ _ (spellsF_encP (x :: m) (d + 1) h nofun (jsonNL pre ind (d + 1)) (jsonNL pre ind d) (ws_jsonNL hp hi _) (ws_jsonNL hp hi _))
    simpa [encP, treeOf, List.append_assoc] using this
theorem spellsL_encP : ∀ (l : List Val) (d : Nat), NumsOKL F l → l ≠ [] → ∀ w w', WS w → WS w' → SpellsL (treeOfL F l) (w ++ (encPL F pre ind d l ++ w'))
  | [], _, _, h0 => absurd rfl h0
  | [v], d, h, _ => fun w w' hw hw' => by
    simpa [treeOfL, encPL] using SpellsL.one (treeOf F v) w (encP F pre ind d v) w' hw (spells_encP v d h.1) hw'
  | v :: u :: l, d, h, _ => fun w w' hw hw' => by
    have := SpellsL.cons (treeOf F v) w (encP F pre ind d v) [] _ _ hw (spells_encP v d h.1) ws_nil
      (spellsL_encP (u :: l) d h.2 nofun (jsonNL pre ind d) w' (ws_jsonNL hp hi d) hw')
    simpa [treeOfL, encPL, List.append_assoc] using this
theorem spellsF_encP : ∀ (m : List (Bytes × Val)) (d : Nat), NumsOKF F m → m ≠ [] → ∀ w w', WS w → WS w' →
    SpellsF (treeOfF F m) (w ++ (encPF F pre ind d m ++ w'))
  | [], _, _, h0 => absurd rfl h0
  | [(k, v)], d, h, _ => fun w w' hw hw' => by
    have hs : WS ([32] : Bytes) := by intro c hc; simp at hc; exact .inl hc
    have := SpellsF.one (escBody 0 k) (treeOf F v) w [] [32] (encP F pre ind d v) w' hw (strText_esc k) ws_nil hs (spells_encP v d h.1) hw'
    simpa [treeOfF, encPF, jsonStr, List.append_assoc] using this
  | (k, v) :: x :: m, d, h, _ => fun w w' hw hw' => by
    have hs : WS ([32] : Bytes) := by intro c hc; simp at hc; exact .inl hc
    have := SpellsF.cons (escBody 0 k) (treeOf F v) w [] [32] (encP F pre ind d v) [] _ _ hw (strText_esc k) ws_nil hs (spells_encP v d h.1) ws_nil
      (spellsF_encP (x :: m) d h.2 nofun (jsonNL pre ind d) w' (ws_jsonNL hp hi d) hw')
    simpa [treeOfF, encPF, jsonStr, List.append_assoc] using this
end

/-- the indented text of a value has the tree of the value -/
theorem tree_encP (v : Val) (d : Nat) (h : NumsOK F v) (hd : depth v ≤ maxDepth) : tree (encP F pre ind d v) = some (treeOf F v) :=
  (tree_iff _ _).2 ⟨[], encP F pre ind d v, [], by simp, ws_nil, ws_nil, spells_encP F hp hi v d h, by rw [depth_treeOf]; exact hd⟩

end Verif.JsonStd
