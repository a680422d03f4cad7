#!/bin/bash
# Compares the model's reading of the example files in /repo/GRF/Examples with the pickled files in /repo/vts/Examples.
# Files without differences are not mentioned; the last line has the numbers of files and sequents.
here=$(cd "$(dirname "$0")" && pwd)
tmp=$(mktemp -d)
python3 "$here/read_pickles.py" > "$tmp/pickles.txt"
cat > "$tmp/Listing.lean" <<'END'
import Verif.Vts.RepoExamples
open Verif.Vts.RepoExamples
def main : IO Unit := do
  printDir "/repo/GRF/Examples/HidingProblems" "HidingProblems"
  printDir "/repo/GRF/Examples/MetiTarski" "Metitarski"
END
cd "$here/../lean" && lake build Verif.Vts.RepoExamples > /dev/null || exit 1
ulimit -s unlimited
lake env lean --run "$tmp/Listing.lean" > "$tmp/model.txt"
python3 "$here/compare_listings.py" "$tmp/pickles.txt" "$tmp/model.txt"
rm -r "$tmp"
