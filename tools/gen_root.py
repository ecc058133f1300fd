import glob,os
out=[]
for d in ["Model","Spec","Proofs","Props"]:
    for f in sorted(glob.glob(f"/verif/lean/Verif/{d}/*.lean")):
        out.append(f"import Verif.{d}.{os.path.basename(f)[:-5]}")
open("/verif/lean/Verif.lean","w").write("\n".join(out)+"\n")
