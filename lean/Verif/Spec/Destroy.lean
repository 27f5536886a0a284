import Verif.Model.Destroy
/- What it means that nothing is left of an object. -/
namespace Milo.Spec

/-- The destructor runs, and every byte of the object's memory is zero afterwards. -/
def Wiped {σ : Type} (D : Dtor σ) (o : σ) : Prop := ∃ o', D.destroy o = some o' ∧ ∀ b ∈ D.memory o', b = 0#8

end Milo.Spec
