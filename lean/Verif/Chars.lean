/-!
`w! "ABC"` is the list of character codes `[65, 66, 67]`, written out by a macro.  Texts are lists of
character codes everywhere in the model.
-/
namespace Verif

open Lean in
macro "w!" s:str : term => do
  let cs := s.getString.toList.map (fun c => Syntax.mkNumLit (toString c.toNat))
  `(([$(cs.toArray),*] : List Nat))

end Verif
