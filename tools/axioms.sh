#!/bin/sh
# Prints the axioms of every property theorem. Run after `lake build` in /verif/lean.
cd "$(dirname "$0")/../lean" || exit 1
f=$(mktemp /tmp/axiomsXXXX.lean)
{ echo 'import Verif'; grep -ho '^theorem C[0-9][0-9]*_[A-Za-z0-9_]*' Verif/Props/*.lean | sed 's/^theorem /#print axioms Verif.Props./'; } > "$f"
lake env lean "$f"
rm -f "$f"
