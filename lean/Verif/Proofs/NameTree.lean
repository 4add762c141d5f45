import Verif.Spec.WellFormed
import Verif.Proofs.XmlText
import Verif.Spec.Blocks
/-
Names survive writing and reading.
-/

set_option autoImplicit false

namespace Yaserde

open XmlText (splitColon_some)

theorem raw_readElem (sc : NsMap) (r : Str) : (readElemName sc r).raw = r := by
  unfold readElemName
  split
  · rfl
  · rename_i p l h; rw [splitColon_some h]; rfl

theorem raw_readAttr (sc : NsMap) (r : Str) : (readAttrName sc r).raw = r := by
  unfold readAttrName
  split
  · rfl
  · rename_i p l h; rw [splitColon_some h]; rfl

theorem namesL_append (a b : List Node) : Node.namesL (a ++ b) = Node.namesL a ++ Node.namesL b := by
  induction a with
  | nil => rfl
  | cons x a ih => rw [List.cons_append, Node.namesL, ih, Node.namesL, List.append_assoc]

theorem namesL_textRun (s : Str) : Node.namesL (textRun s) = [] := by
  unfold textRun
  split <;> rfl

mutual
  theorem names_back : ∀ (k : WNode) (sc : NsMap), (k.back sc).names = k.names
    | .elem n as nss ks, sc => by
      rw [WNode.back, Node.names, WNode.names, raw_readElem, names_backL ks (nss ++ sc) [], List.map_map]
      congr 2
      exact List.map_congr_left fun a _ => raw_readAttr _ _
    | .text s, sc => by rw [WNode.back]; rfl
    | .cdata s, sc => by rw [WNode.back]; rfl
  theorem names_backL : ∀ (ks : List WNode) (sc : NsMap) (run : Str), Node.namesL (WNode.backL sc run ks) = WNode.namesL ks
    | [], sc, run => by rw [WNode.backL, namesL_textRun]; rfl
    | .text s :: ks, sc, run => by rw [WNode.backL, names_backL ks]; rfl
    | .cdata s :: ks, sc, run => by rw [WNode.backL, names_backL ks]; rfl
    | .elem n as nss kk :: ks, sc, run => by
      rw [WNode.backL, namesL_append, namesL_textRun, Node.namesL, names_back (.elem n as nss kk), names_backL ks]
      rfl
end

mutual
  theorem names_like : ∀ (a b : Node), a.Like b → a.names = b.names
    | .text s, .text t, _ => rfl
    | .elem n as m ks, .elem n' as' m' ks', h => by
      obtain ⟨rfl, rfl, -, -, h⟩ := h
      rw [Node.names, Node.names, names_likeL ks ks' h]
    | .text _, .elem .., h => by cases h
    | .elem .., .text _, h => by cases h
  theorem names_likeL : ∀ (a b : List Node), Node.LikeL a b → Node.namesL a = Node.namesL b
    | [], [], _ => rfl
    | k :: ks, k' :: ks', h => by rw [Node.namesL, Node.namesL, names_like k k' h.1, names_likeL ks ks' h.2]
    | [], _ :: _, h => by cases h
    | _ :: _, [], h => by cases h
end

/-! ### The names are part of the skeleton -/

mutual
  def Skel.names : Skel → List NameTree
    | .elem n as _ ks => [.node n (as.map Name.raw) (Skel.namesL ks)]
    | .text => []
    | .cdata => []
  def Skel.namesL : List Skel → List NameTree
    | [] => []
    | k :: ks => k.names ++ Skel.namesL ks
end

mutual
  theorem names_skel : ∀ k : WNode, k.skel.names = k.names
    | .elem n as m ks => by
      rw [WNode.skel, Skel.names, WNode.names, names_skelL ks, List.map_map]
      rfl
    | .text s => rfl
    | .cdata s => rfl
  theorem names_skelL : ∀ ks : List WNode, Skel.namesL (WNode.skelL ks) = WNode.namesL ks
    | [] => rfl
    | k :: ks => by rw [WNode.skelL, Skel.namesL, WNode.namesL, names_skel k, names_skelL ks]
end

end Yaserde
