lean/.lake/
.lake/
